import Verif.Epoll

/-! C148: `EPollSelect`. -/

namespace LS.Epoll

/-- Every place of the heap belongs to a known descriptor, and its reference names the place. -/
def Refs (s : St) : Prop := ∀ i, i < s.heap.length → s.own i < s.map.length ∧ (s.fd (s.own i)).ref = some i

/-- Nothing but references and the order of the heap differ. -/
structure Same (s t : St) : Prop where
  len : t.map.length = s.map.length
  tm : ∀ f, (t.fd f).tm = (s.fd f).tm
  want : ∀ f, (t.fd f).want = (s.fd f).want
  data : ∀ f, (t.fd f).data = (s.fd f).data
  kern : t.kern = s.kern
  usable : t.usable = s.usable
  wakes : t.wakes = s.wakes
  reason : t.reason = s.reason

theorem Same.refl (s : St) : Same s s := ⟨rfl, fun _ => rfl, fun _ => rfl, fun _ => rfl, rfl, rfl, rfl, rfl⟩

theorem Same.trans {s t u : St} (h : Same s t) (k : Same t u) : Same s u :=
  ⟨k.len.trans h.len, fun f => (k.tm f).trans (h.tm f), fun f => (k.want f).trans (h.want f),
    fun f => (k.data f).trans (h.data f), k.kern.trans h.kern, k.usable.trans h.usable, k.wakes.trans h.wakes,
    k.reason.trans h.reason⟩

theorem fd_put (s : St) (f : Nat) (d : Fd) (g : Nat) (h : f < s.map.length) :
    (s.put f d).fd g = if g = f then d else s.fd g := by
  unfold St.put St.fd
  by_cases e : g = f
  · subst e; simp [List.getD, h]
  · simp [List.getD, e, Ne.symm e]

theorem put_out (s : St) (f : Nat) (d : Fd) (h : ¬ f < s.map.length) : s.put f d = s := by
  unfold St.put
  rw [List.set_eq_of_length_le (by omega)]

theorem fd_setRef (s : St) (f : Nat) (r : Option Nat) (g : Nat) (h : f < s.map.length) :
    ((s.setRef f r).fd g).ref = if g = f then r else (s.fd g).ref := by
  unfold St.setRef
  rw [fd_put s f _ g h]
  split <;> rfl

theorem same_setRef (s : St) (f : Nat) (r : Option Nat) : Same s (s.setRef f r) := by
  unfold St.setRef
  by_cases h : f < s.map.length
  · refine ⟨by simp [St.put], ?_, ?_, ?_, rfl, rfl, rfl, rfl⟩ <;>
    · intro g
      rw [fd_put s f _ g h]
      split
      · next e => subst e; rfl
      · rfl
  · rw [put_out _ _ _ h]; exact .refl s

@[simp] theorem setRef_heap (s : St) (f : Nat) (r : Option Nat) : (s.setRef f r).heap = s.heap := rfl
@[simp] theorem put_heap (s : St) (f : Nat) (d : Fd) : (s.put f d).heap = s.heap := rfl
@[simp] theorem put_len (s : St) (f : Nat) (d : Fd) : (s.put f d).map.length = s.map.length := by simp [St.put]

theorem own_get (s : St) (i : Nat) (h : i < s.heap.length) : s.own i = s.heap[i] := by
  simp [St.own, List.getD, h]

theorem Refs.inj {s : St} (h : Refs s) {i j : Nat} (hi : i < s.heap.length) (hj : j < s.heap.length)
    (e : s.own i = s.own j) : i = j := by
  have a := (h i hi).2
  rw [e, (h j hj).2] at a
  exact (Option.some.inj a).symm

theorem own_swap (s : St) (i j k : Nat) (hi : i < s.heap.length) (hj : j < s.heap.length) (hk : k < s.heap.length) :
    (s.swap i j).own k = if k = j then s.own i else if k = i then s.own j else s.own k := by
  have e : (s.swap i j).own k = ((s.heap.set i (s.own j)).set j (s.own i)).getD k 0 := rfl
  rw [e]
  simp only [List.getD, List.getElem?_set, List.length_set]
  by_cases h1 : k = j
  · subst h1; simp [hk]
  · by_cases h2 : k = i
    · subst h2; simp [hk, h1, Ne.symm h1]
    · simp [h1, h2, Ne.symm h1, Ne.symm h2, St.own, List.getD]

theorem swap_len (s : St) (i j : Nat) : (s.swap i j).heap.length = s.heap.length := by simp [St.swap]

theorem swap_same (s : St) (i j : Nat) : Same s (s.swap i j) := by
  unfold St.swap
  exact Same.trans (Same.trans (t := ({ s with heap := (s.heap.set i (s.own j)).set j (s.own i) } : St))
    ⟨rfl, fun _ => rfl, fun _ => rfl, fun _ => rfl, rfl, rfl, rfl, rfl⟩ (same_setRef _ _ _)) (same_setRef _ _ _)

theorem swap_perm (s : St) (i j : Nat) (hi : i < s.heap.length) (hj : j < s.heap.length) :
    (s.swap i j).heap.Perm s.heap := by
  have e : (s.swap i j).heap = (s.heap.set i (s.own j)).set j (s.own i) := rfl
  rw [e, own_get s i hi, own_get s j hj]
  exact List.set_set_perm hi hj

/-- The references after an exchange are right when they were right elsewhere. -/
theorem swap_refs (s : St) (i j : Nat) (hi : i < s.heap.length) (hj : j < s.heap.length) (hne : i ≠ j)
    (hm : ∀ k, k < s.heap.length → s.own k < s.map.length)
    (hinj : ∀ a b, a < s.heap.length → b < s.heap.length → s.own a = s.own b → a = b)
    (h : ∀ k, k < s.heap.length → k ≠ i → k ≠ j → (s.fd (s.own k)).ref = some k) : Refs (s.swap i j) := by
  intro k hk
  rw [swap_len] at hk
  have hl : (s.swap i j).map.length = s.map.length := (swap_same s i j).len
  rw [own_swap s i j k hi hj hk, hl]
  have hr : ∀ g, ((s.swap i j).fd g).ref =
      if g = s.own i then some j else if g = s.own j then some i else (s.fd g).ref := by
    intro g
    unfold St.swap
    simp only []
    rw [fd_setRef _ _ _ _ (by rw [(same_setRef _ _ _).len]; exact hm i hi)]
    have e2 := fd_setRef ({ s with heap := (s.heap.set i (s.own j)).set j (s.own i) } : St) (s.own j) (some i) g (hm j hj)
    rw [e2]
    rfl
  rw [hr]
  by_cases h1 : k = j
  · subst h1; simp only [if_true]; exact ⟨hm i hi, trivial⟩
  · by_cases h2 : k = i
    · subst h2
      have hn : s.own j ≠ s.own k := fun e => hne (hinj _ _ hj hi e).symm
      simp only [h1, hn, if_false, if_true]
      exact ⟨hm j hj, trivial⟩
    · have hn1 : s.own k ≠ s.own i := fun e => h2 (hinj _ _ hk hi e)
      have hn2 : s.own k ≠ s.own j := fun e => h1 (hinj _ _ hk hj e)
      simp only [h1, h2, hn1, hn2, if_false]
      exact ⟨hm k hk, h k hk h2 h1⟩

/-- A reordering of the heap with right references. -/
structure Shuf (s t : St) : Prop where
  same : Same s t
  perm : t.heap.Perm s.heap
  refs : Refs t

theorem Shuf.trans {s t u : St} (h : Shuf s t) (k : Shuf t u) : Shuf s u :=
  ⟨h.same.trans k.same, k.perm.trans h.perm, k.refs⟩

theorem swap_shuf (s : St) (hr : Refs s) (i j : Nat) (hi : i < s.heap.length) (hj : j < s.heap.length) (hne : i ≠ j) :
    Shuf s (s.swap i j) :=
  ⟨swap_same s i j, swap_perm s i j hi hj,
    swap_refs s i j hi hj hne (fun k hk => (hr k hk).1) (fun _ _ ha hb e => hr.inj ha hb e) (fun k hk _ _ => (hr k hk).2)⟩

theorem siftUp_shuf : ∀ (n : Nat) (s : St) (c : Nat), Refs s → c < s.heap.length → Shuf s (siftUp n s c)
  | 0, s, _, hr, _ => ⟨.refl s, .refl _, hr⟩
  | n + 1, s, c, hr, hc => by
    rw [siftUp]
    split
    · split
      · have h1 := swap_shuf s hr ((c - 1) / 2) c (by omega) hc (by omega)
        exact h1.trans (siftUp_shuf n _ _ h1.refs (by rw [swap_len]; omega))
      · exact ⟨.refl s, .refl _, hr⟩
    · exact ⟨.refl s, .refl _, hr⟩

theorem child_lt (s : St) (size r : Nat) (h : 2 * r + 1 < size) : s.child size r < size ∧ r < s.child size r := by
  unfold St.child
  split
  · next hc => simp only [Bool.and_eq_true, decide_eq_true_eq] at hc; omega
  · omega

/-- `shiftDown` exchanges places below `size` only. -/
theorem siftDown_shuf : ∀ (n size : Nat) (s : St) (r : Nat), Refs s → size ≤ s.heap.length →
    Shuf s (siftDown n size s r) ∧ ∀ k, size ≤ k → (siftDown n size s r).heap[k]? = s.heap[k]?
  | 0, _, s, _, hr, _ => ⟨⟨.refl s, .refl _, hr⟩, fun _ _ => rfl⟩
  | n + 1, size, s, r, hr, hs => by
    rw [siftDown]
    split
    · next hc =>
      have hl := child_lt s size r hc
      split
      · have h1 := swap_shuf s hr r (s.child size r) (by omega) (by omega) (by omega)
        have h2 := siftDown_shuf n size (s.swap r (s.child size r)) (s.child size r) h1.refs (by rw [swap_len]; exact hs)
        refine ⟨h1.trans h2.1, fun k hk => ?_⟩
        rw [h2.2 k hk]
        have e : (s.swap r (s.child size r)).heap =
          (s.heap.set r (s.own (s.child size r))).set (s.child size r) (s.own r) := rfl
        rw [e, List.getElem?_set_ne (by omega), List.getElem?_set_ne (by omega)]
      · exact ⟨⟨.refl s, .refl _, hr⟩, fun _ _ => rfl⟩
    · exact ⟨⟨.refl s, .refl _, hr⟩, fun _ _ => rfl⟩

theorem mem_own {s : St} {f : Nat} (h : f ∈ s.heap) : ∃ i, i < s.heap.length ∧ s.own i = f := by
  obtain ⟨i, hi, e⟩ := List.getElem_of_mem h
  exact ⟨i, hi, by rw [own_get s i hi]; exact e⟩

theorem Refs.mem {s : St} (h : Refs s) {f : Nat} (hf : f ∈ s.heap) :
    ∃ i, (s.fd f).ref = some i ∧ i < s.heap.length ∧ s.own i = f := by
  obtain ⟨i, hi, e⟩ := mem_own hf
  exact ⟨i, by rw [← e]; exact (h i hi).2, hi, e⟩

theorem Refs.nodup {s : St} (h : Refs s) : s.heap.Nodup := by
  unfold List.Nodup
  rw [List.pairwise_iff_getElem]
  intro i j hi hj hij e
  have : s.own i = s.own j := by
    rw [own_get s i hi, own_get s j hj]
    exact e
  exact absurd (h.inj hi hj this) (by omega)

/-- What `removeOldTm` does: the place named by the reference goes, whoever owns it. -/
theorem removeOld_spec (s : St) (hr : Refs s) (f : Nat) :
    Same s (removeOld s f) ∧ Refs (removeOld s f) ∧
    ((removeOld s f).heap = s.heap ∧ (∀ p, (s.fd f).ref = some p → s.heap.length ≤ p) ∨
      ∃ p, (s.fd f).ref = some p ∧ p < s.heap.length ∧ (s.own p :: (removeOld s f).heap).Perm s.heap) := by
  unfold removeOld
  split
  · next h => exact ⟨.refl s, hr, .inl ⟨rfl, fun p e => by rw [h] at e; cases e⟩⟩
  · next p h =>
    have hfm : f < s.map.length := by
      refine Nat.lt_of_not_le (fun hle => ?_)
      have : s.fd f = .new := by simp [St.fd, List.getD, hle]
      rw [this] at h; cases h
    have hs1 : Same s (s.setRef f none) := same_setRef s f none
    have ho : ∀ i, (s.setRef f none).own i = s.own i := fun _ => rfl
    by_cases hp : s.heap.length ≤ p
    · rw [if_pos (by simpa using hp)]
      refine ⟨hs1, ?_, .inl ⟨rfl, fun q e => by rw [h] at e; cases e; exact hp⟩⟩
      intro i hi
      have hi' : i < s.heap.length := hi
      rw [ho, hs1.len, fd_setRef s f none _ hfm]
      have hn : s.own i ≠ f := by
        intro e
        have := (hr i hi').2
        rw [e, h] at this
        cases this
        omega
      rw [if_neg hn]
      exact hr i hi'
    · have hp : p < s.heap.length := by omega
      rw [if_neg (by simpa using hp)]
      have hm1 : ∀ k, k < s.heap.length → s.own k < (s.setRef f none).map.length := fun k hk => by
        rw [hs1.len]; exact (hr k hk).1
      have hoth : ∀ k, k < s.heap.length → k ≠ p → ((s.setRef f none).fd (s.own k)).ref = some k := by
        intro k hk hkp
        rw [fd_setRef s f none _ hfm, if_neg, (hr k hk).2]
        intro e
        have := (hr k hk).2
        rw [e, h] at this
        exact hkp (Option.some.inj this).symm
      have hh : (s.setRef f none).heap = s.heap := rfl
      generalize s.setRef f none = s1 at hs1 ho hm1 hoth hh
      have key : Same s (popAt s1 p) ∧ (popAt s1 p).heap.Perm s.heap ∧
          (popAt s1 p).heap[s.heap.length - 1]? = some (s.own p) ∧
          ∀ k, k < s.heap.length - 1 → (popAt s1 p).own k < (popAt s1 p).map.length ∧
            ((popAt s1 p).fd ((popAt s1 p).own k)).ref = some k := by
        unfold popAt
        rw [hh]
        split
        · next hlt =>
          have hs2 : Refs (s1.swap p (s.heap.length - 1)) := by
            refine swap_refs s1 p (s.heap.length - 1) (by rw [hh]; omega) (by rw [hh]; omega) (by omega) ?_ ?_ ?_
            · intro k hk; rw [hh] at hk; rw [ho]; exact hm1 k hk
            · intro a b ha hb e; rw [hh] at ha hb; rw [ho, ho] at e; exact hr.inj ha hb e
            · intro k hk h1 _; rw [hh] at hk; rw [ho]; exact hoth k hk h1
          have hl2 : (s1.swap p (s.heap.length - 1)).heap.length = s.heap.length := by rw [swap_len, hh]
          obtain ⟨h3, h4⟩ := siftDown_shuf s.heap.length (s.heap.length - 1) (s1.swap p (s.heap.length - 1)) 0 hs2 (by omega)
          have hl3 := h3.perm.length_eq
          refine ⟨hs1.trans ((swap_same _ _ _).trans h3.same), ?_, ?_, ?_⟩
          · refine h3.perm.trans ?_
            rw [← hh]
            exact swap_perm s1 p _ (by rw [hh]; omega) (by rw [hh]; omega)
          · rw [h4 _ (Nat.le_refl _), List.getElem?_eq_getElem (by omega), ← own_get _ _ (by omega),
              own_swap s1 _ _ _ (by rw [hh]; omega) (by rw [hh]; omega) (by rw [hh]; omega), if_pos rfl, ho]
          · intro k hk
            exact h3.refs k (by omega)
        · next hlt =>
          have e : p = s.heap.length - 1 := by omega
          refine ⟨hs1, by rw [hh], ?_, ?_⟩
          · rw [hh, ← e, List.getElem?_eq_getElem hp, own_get s p hp]
          · intro k hk
            rw [ho]
            exact ⟨hm1 k (by omega), hoth k (by omega) (by omega)⟩
      obtain ⟨k1, k2, k3, k4⟩ := key
      generalize popAt s1 p = s2 at k1 k2 k3 k4
      have hl := k2.length_eq
      have hd : s2.heap.dropLast ++ [s.own p] = s2.heap := by
        have hne : s2.heap ≠ [] := by intro e; rw [e] at hl; simp at hl; omega
        have := List.dropLast_concat_getLast hne
        rw [List.getLast_eq_getElem] at this
        rw [← hl, List.getElem?_eq_getElem (by omega)] at k3
        rw [Option.some.inj k3] at this
        exact this
      refine ⟨⟨k1.len, k1.tm, k1.want, k1.data, k1.kern, k1.usable, k1.wakes, k1.reason⟩, ?_, .inr ⟨p, h, hp, ?_⟩⟩
      · intro i hi
        have hi' : i < s.heap.length - 1 := by simpa [hl] using hi
        have e : ({ s2 with heap := s2.heap.dropLast } : St).own i = s2.own i := by
          rw [own_get _ _ hi, own_get _ _ (by omega)]
          simp
        rw [e]
        exact k4 i hi'
      · refine List.Perm.trans ?_ k2
        rw [← hd]
        simpa using (List.perm_append_comm (l₁ := [s.own p]) (l₂ := s2.heap.dropLast))

/-- The own timeout of the descriptor goes when it has one. -/
theorem removeOld_mem (s : St) (hr : Refs s) (f : Nat) :
    (f ∈ s.heap → (f :: (removeOld s f).heap).Perm s.heap) ∧ f ∉ (removeOld s f).heap := by
  obtain ⟨_, h2, h3⟩ := removeOld_spec s hr f
  constructor
  · intro hf
    obtain ⟨i, e, hi, ho⟩ := hr.mem hf
    rcases h3 with ⟨_, h⟩ | ⟨p, hp, _, hperm⟩
    · exact absurd (h i e) (by omega)
    · rw [e] at hp; cases hp; rw [ho] at hperm; exact hperm
  · intro hf
    rcases h3 with ⟨h, hn⟩ | ⟨p, hp, hl, hperm⟩
    · rw [h] at hf
      obtain ⟨i, e, hi, _⟩ := hr.mem hf
      exact absurd (hn i e) (by omega)
    · have hfs : f ∈ s.heap := hperm.mem_iff.1 (List.mem_cons_of_mem _ hf)
      obtain ⟨i, e, hi, ho⟩ := hr.mem hfs
      rw [e] at hp; cases hp
      rw [ho] at hperm
      have := hperm.nodup_iff.2 hr.nodup
      exact (List.nodup_cons.1 this).1 hf

/-- What `addNewTm` does. -/
theorem addNew_spec (s : St) (hr : Refs s) (f : Nat) (hf : f ∉ s.heap) (hm : f < s.map.length) :
    Same s (addNew s f) ∧ Refs (addNew s f) ∧
    (addNew s f).heap.Perm (if (s.fd f).tm = none then s.heap else f :: s.heap) := by
  unfold addNew
  split
  · next h =>
    refine ⟨same_setRef s f none, ?_, .refl _⟩
    intro i hi
    have hi' : i < s.heap.length := hi
    have ho : (s.setRef f none).own i = s.own i := rfl
    rw [ho, (same_setRef s f none).len, fd_setRef s f none _ hm, if_neg]
    · exact hr i hi'
    · intro e; exact hf (by rw [← e, own_get s i hi']; exact List.getElem_mem hi')
  · next h =>
    generalize ht : (({ s with heap := s.heap ++ [f] } : St).setRef f (some s.heap.length)) = t
    have hth : t.heap = s.heap ++ [f] := by rw [← ht]; rfl
    have hsame : Same s t := by
      rw [← ht]
      exact Same.trans (t := ({ s with heap := s.heap ++ [f] } : St))
        ⟨rfl, fun _ => rfl, fun _ => rfl, fun _ => rfl, rfl, rfl, rfl, rfl⟩ (same_setRef _ _ _)
    have href : ∀ g, (t.fd g).ref = if g = f then some s.heap.length else (s.fd g).ref := by
      intro g
      rw [← ht, fd_setRef _ _ _ _ (by exact hm)]
      rfl
    have hrt : Refs t := by
      intro i hi
      rw [hth] at hi
      simp at hi
      rw [hsame.len, href]
      by_cases e : i = s.heap.length
      · subst e
        have : t.own s.heap.length = f := by simp [St.own, hth, List.getD]
        rw [this, if_pos rfl]; exact ⟨hm, rfl⟩
      · have hi' : i < s.heap.length := by omega
        have : t.own i = s.own i := by simp [St.own, hth, List.getD, List.getElem?_append, hi']
        rw [this, if_neg]
        · exact hr i hi'
        · intro e; exact hf (by rw [← e, own_get s i hi']; exact List.getElem_mem hi')
    have h1 := siftUp_shuf s.heap.length t s.heap.length hrt (by rw [hth]; simp)
    refine ⟨hsame.trans h1.same, h1.refs, h1.perm.trans ?_⟩
    rw [hth]
    exact List.perm_append_comm (l₁ := s.heap) (l₂ := [f])

theorem grow_fd (s : St) (f g : Nat) : (s.grow f).fd g = s.fd g := by
  unfold St.grow St.fd
  simp only [List.getD, List.getElem?_append, List.getElem?_replicate]
  split
  · rfl
  · next h =>
    rw [List.getElem?_eq_none (by omega)]
    split <;> rfl

theorem grow_len (s : St) (f : Nat) : f < (s.grow f).map.length ∧ s.map.length ≤ (s.grow f).map.length := by
  simp [St.grow]; omega

theorem grow_refs (s : St) (hr : Refs s) (f : Nat) : Refs (s.grow f) := by
  intro i hi
  have hi' : i < s.heap.length := hi
  have ho : (s.grow f).own i = s.own i := rfl
  rw [ho, grow_fd]
  exact ⟨Nat.lt_of_lt_of_le (hr i hi').1 (grow_len s f).2, (hr i hi').2⟩

/-- The record behind a call of `set`, for every descriptor. -/
theorem charge_spec (s : St) (hr : Refs s) (f : Nat) (w : Want) (tm : Option Nat) (d : Nat) :
    Refs (charge s f w tm d) ∧
    (((charge s f w tm d).fd f).tm = tm ∧ ((charge s f w tm d).fd f).want = w ∧ ((charge s f w tm d).fd f).data = d) ∧
    (∀ g, g ≠ f → ((charge s f w tm d).fd g).tm = (s.fd g).tm ∧ ((charge s f w tm d).fd g).want = (s.fd g).want ∧
      ((charge s f w tm d).fd g).data = (s.fd g).data) ∧
    (f ∈ (charge s f w tm d).heap ↔ tm ≠ none) ∧
    ((s.fd f).ref = none ∨ f ∈ s.heap → ∀ g, g ≠ f → (g ∈ (charge s f w tm d).heap ↔ g ∈ s.heap)) ∧
    (∀ g, g ≠ f → g ∈ (charge s f w tm d).heap → g ∈ s.heap) ∧
    (charge s f w tm d).kern = s.kern ∧ (charge s f w tm d).usable = s.usable ∧
    (charge s f w tm d).wakes = s.wakes ∧ (charge s f w tm d).reason = s.reason ∧
    (charge s f w tm d).map.length = (s.grow f).map.length := by
  have hg := grow_refs s hr f
  obtain ⟨a1, a2, a3⟩ := removeOld_spec (s.grow f) hg f
  obtain ⟨b1, b2⟩ := removeOld_mem (s.grow f) hg f
  unfold charge
  simp only []
  generalize removeOld (s.grow f) f = s1 at a1 a2 a3 b1 b2
  have hl : f < s1.map.length := by rw [a1.len]; exact (grow_len s f).1
  have c1 : Refs (s1.put f ⟨tm, w, d, (s1.fd f).ref⟩) := by
    intro i hi
    have hi' : i < s1.heap.length := hi
    have ho : (s1.put f ⟨tm, w, d, (s1.fd f).ref⟩).own i = s1.own i := rfl
    rw [ho, put_len, fd_put _ _ _ _ hl]
    refine ⟨(a2 i hi').1, ?_⟩
    split
    · next e => show (s1.fd f).ref = some i; rw [← e]; exact (a2 i hi').2
    · exact (a2 i hi').2
  have hfd : ∀ g, (s1.put f ⟨tm, w, d, (s1.fd f).ref⟩).fd g = if g = f then ⟨tm, w, d, (s1.fd f).ref⟩ else s1.fd g :=
    fun g => fd_put _ _ _ _ hl
  obtain ⟨d1, d2, d3⟩ := addNew_spec (s1.put f ⟨tm, w, d, (s1.fd f).ref⟩) c1 f b2 (by rw [put_len]; exact hl)
  have htm : ((s1.put f ⟨tm, w, d, (s1.fd f).ref⟩).fd f).tm = tm := by rw [hfd, if_pos rfl]
  rw [htm] at d3
  have hsub : ∀ g, g ∈ s1.heap → g ∈ s.heap := by
    intro g hg'
    rcases a3 with ⟨h, _⟩ | ⟨p, _, _, hp⟩
    · rw [h] at hg'; exact hg'
    · exact hp.mem_iff.1 (List.mem_cons_of_mem _ hg')
  have hm : ∀ g, g ≠ f → (g ∈ (addNew (s1.put f ⟨tm, w, d, (s1.fd f).ref⟩) f).heap ↔ g ∈ s1.heap) := by
    intro g hne
    rw [d3.mem_iff]
    split <;> simp [hne]
  refine ⟨d2, ⟨?_, ?_, ?_⟩, ?_, ?_, ?_, ?_, d1.kern.trans a1.kern, d1.usable.trans a1.usable, d1.wakes.trans a1.wakes,
    d1.reason.trans a1.reason, ?_⟩
  · rw [d1.tm, hfd, if_pos rfl]
  · rw [d1.want, hfd, if_pos rfl]
  · rw [d1.data, hfd, if_pos rfl]
  · intro g hne
    rw [d1.tm, d1.want, d1.data, hfd, if_neg hne, a1.tm, a1.want, a1.data, grow_fd]
    exact ⟨rfl, rfl, rfl⟩
  · rw [d3.mem_iff]
    split
    · next e => simp [b2, e]
    · next e => simp [e]
  · intro hor g hne
    rw [hm g hne]
    rcases hor with hn | hf
    · rcases a3 with ⟨h, _⟩ | ⟨p, hp, _, _⟩
      · rw [h]; exact Iff.rfl
      · rw [grow_fd, hn] at hp; cases hp
    · have := (b1 hf).mem_iff (a := g)
      rw [← show g ∈ (s.grow f).heap ↔ g ∈ s.heap from Iff.rfl, ← this]
      simp [hne]
  · intro g hne hg'
    exact hsub g ((hm g hne).1 hg')
  · rw [d1.len, put_len, a1.len]

/-- Nothing but references, the heap and the kernel differ. -/
structure Quiet (s t : St) : Prop where
  refs : Refs t
  len : t.map.length = s.map.length
  tm : ∀ f, (t.fd f).tm = (s.fd f).tm
  want : ∀ f, (t.fd f).want = (s.fd f).want
  data : ∀ f, (t.fd f).data = (s.fd f).data

theorem Quiet.trans {s t u : St} (h : Quiet s t) (k : Quiet t u) : Quiet s u :=
  ⟨k.refs, k.len.trans h.len, fun f => (k.tm f).trans (h.tm f), fun f => (k.want f).trans (h.want f),
    fun f => (k.data f).trans (h.data f)⟩

theorem quiet_refl {s : St} (h : Refs s) : Quiet s s := ⟨h, rfl, fun _ => rfl, fun _ => rfl, fun _ => rfl⟩

theorem quiet_remove (s : St) (h : Refs s) (f : Nat) : Quiet s (removeOld s f) := by
  obtain ⟨a, b, _⟩ := removeOld_spec s h f
  exact ⟨b, a.len, a.tm, a.want, a.data⟩

/-- A descriptor is told: its timeout is gone and it is not waited for any more. -/
def Told (s t : St) (f d : Nat) : Prop :=
  ∃ u, Quiet s u ∧ f ∉ u.heap ∧ f < u.map.length ∧ d = (u.fd f).data ∧ t = u.put f { u.fd f with want := .zero }

theorem Refs.zero {s : St} (h : Refs s) (f : Nat) (d : Fd) (hd : d.ref = (s.fd f).ref) : Refs (s.put f d) := by
  by_cases hf : f < s.map.length
  · intro i hi
    have hi' : i < s.heap.length := hi
    have ho : (s.put f d).own i = s.own i := rfl
    rw [ho, put_len, fd_put _ _ _ _ hf]
    refine ⟨(h i hi').1, ?_⟩
    split
    · next e => rw [hd, ← e]; exact (h i hi').2
    · exact (h i hi').2
  · rw [put_out _ _ _ hf]; exact h

theorem Told.refs {s t : St} {f d : Nat} (h : Told s t f d) : Refs t := by
  obtain ⟨u, q, _, _, _, rfl⟩ := h
  exact q.refs.zero f _ rfl

theorem expire_spec (now : Nat) : ∀ (n : Nat) (s : St), Refs s →
    (∀ o d t p, expire now n s = (some (o, d), t, p) →
      Told s t o d ∧ (s.fd o).want.any = true ∧ expired (s.fd o).tm now = true) ∧
    (∀ t p, expire now n s = (none, t, p) → Quiet s t)
  | 0, s, hr => by
    refine ⟨fun o d t p h => by simp [expire] at h, fun t p h => ?_⟩
    simp only [expire, Prod.mk.injEq] at h
    rw [← h.2.1]; exact quiet_refl hr
  | n + 1, s, hr => by
    cases hh : s.heap with
    | nil =>
      refine ⟨fun o d t p h => by simp [expire, hh] at h, fun t p h => ?_⟩
      simp only [expire, hh, Prod.mk.injEq] at h
      rw [← h.2.1]; exact quiet_refl hr
    | cons o l =>
      have hq := quiet_remove s hr o
      have ho : o ∈ s.heap := by rw [hh]; simp
      have hom : o < s.map.length := by
        obtain ⟨i, hi, e⟩ := mem_own ho
        rw [← e]; exact (hr i hi).1
      have ih := expire_spec now n (removeOld s o) hq.refs
      cases he : expired (s.fd o).tm now with
      | false =>
        have e : expire now (n + 1) s = (none, s, (s.fd o).tm) := by simp [expire, hh, he]
        rw [e]
        refine ⟨fun o d t p h => by simp at h, fun t p h => ?_⟩
        simp only [Prod.mk.injEq] at h
        rw [← h.2.1]; exact quiet_refl hr
      | true =>
        cases hw : ((removeOld s o).fd o).want.any with
        | true =>
          have e : expire now (n + 1) s = (some (o, ((removeOld s o).fd o).data),
              (removeOld s o).put o { (removeOld s o).fd o with want := .zero }, none) := by
            simp [expire, hh, he, hw]
          rw [e]
          refine ⟨fun o' d t p h => ?_, fun t p h => by simp at h⟩
          simp only [Prod.mk.injEq, Option.some.injEq] at h
          obtain ⟨⟨rfl, rfl⟩, rfl, _⟩ := h
          refine ⟨⟨_, hq, (removeOld_mem s hr o).2, by rw [hq.len]; exact hom, rfl, rfl⟩, ?_, he⟩
          rw [← hq.want]; exact hw
        | false =>
          by_cases hE : (removeOld s o).heap.isEmpty = true
          · have e : expire now (n + 1) s = (none, removeOld s o, (s.fd o).tm) := by
              simp only [expire, hh, he, hw, hE, if_true, Bool.false_eq_true, if_false]
            rw [e]
            refine ⟨fun o' d t p h => by simp at h, fun t p h => ?_⟩
            simp only [Prod.mk.injEq] at h
            rw [← h.2.1]; exact hq
          · have e : expire now (n + 1) s = expire now n (removeOld s o) := by
              simp only [expire, hh, he, hw, hE, if_true, Bool.false_eq_true, if_false]
            rw [e]
            refine ⟨fun o' d t p h => ?_, fun t p h => hq.trans (ih.2 t p h)⟩
            obtain ⟨⟨u, a, b, c, d1, d2⟩, h2, h3⟩ := ih.1 o' d t p h
            exact ⟨⟨u, hq.trans a, b, c, d1, d2⟩, by rw [← hq.want]; exact h2, by rw [← hq.tm]; exact h3⟩

/-- What one turn of the loop does. -/
theorem turn_spec (s : St) (hr : Refs s) (tm : Option Nat) (now : Nat) (k : Kern) :
    (∀ f fl d t, turn s tm now k = (.event f fl d, t) →
      Told s t f d ∧ (fl.any = true → (s.fd f).want.any = true ∧ ∃ e, k = .ev f e ∧ fl = e.flags)) ∧
    (∀ r t, turn s tm now k = (r, t) → (∀ f fl d, r ≠ .event f fl d) → Quiet s t) := by
  have hx := expire_spec now (s.heap.length + 1) s hr
  unfold turn
  rcases he : expire now (s.heap.length + 1) s with ⟨_ | ⟨o, d⟩, t1, p⟩
  · have hq := hx.2 t1 p he
    simp only []
    cases k with
    | intr => 
      refine ⟨fun f fl d t h => by simp [answer] at h, fun r t h _ => ?_⟩
      simp only [answer, Prod.mk.injEq] at h; rw [← h.2]; exact hq
    | fail => 
      refine ⟨fun f fl d t h => by simp [answer] at h, fun r t h _ => ?_⟩
      simp only [answer, Prod.mk.injEq] at h; rw [← h.2]; exact hq
    | pipe =>
      refine ⟨fun f fl d t h => by simp [answer] at h, fun r t h _ => ?_⟩
      simp only [answer, Prod.mk.injEq] at h
      rw [← h.2]
      exact ⟨hq.refs, hq.len, hq.tm, hq.want, hq.data⟩
    | over t0 =>
      cases hex : expired tm t0 with
      | true =>
        refine ⟨fun f fl d t h => by simp [answer, hex] at h, fun r t h _ => ?_⟩
        simp only [answer, hex, if_true, Prod.mk.injEq] at h; rw [← h.2]; exact hq
      | false =>
        cases hh : t1.heap with
        | nil =>
          refine ⟨fun f fl d t h => by simp [answer, hex, hh] at h, fun r t h _ => ?_⟩
          simp only [answer, hex, hh, Bool.false_eq_true, if_false, Prod.mk.injEq] at h; rw [← h.2]; exact hq
        | cons o l =>
          have ho : o ∈ t1.heap := by rw [hh]; simp
          have hom : o < t1.map.length := by
            obtain ⟨i, hi, e⟩ := mem_own ho
            rw [← e]; exact (hq.refs i hi).1
          have hq2 := quiet_remove t1 hq.refs o
          refine ⟨fun f fl d t h => ?_, fun r t h hn => ?_⟩
          · simp only [answer, hex, hh, Bool.false_eq_true, if_false, Prod.mk.injEq, Res.event.injEq] at h
            obtain ⟨⟨rfl, rfl, rfl⟩, rfl⟩ := h
            exact ⟨⟨_, hq.trans hq2, (removeOld_mem t1 hq.refs o).2, by rw [hq2.len]; exact hom, rfl, rfl⟩,
              fun h => by simp [Want.zero, Want.any] at h⟩
          · simp only [answer, hex, hh, Bool.false_eq_true, if_false, Prod.mk.injEq] at h
            exact absurd h.1.symm (hn _ _ _)
    | ev f0 e =>
      have hr1 : Refs ({ t1 with kern := fun x => if x = f0 then some ⟨false, false, false, false, false⟩ else t1.kern x } : St) :=
        hq.refs
      have hq1 : Quiet t1 ({ t1 with kern := fun x => if x = f0 then some ⟨false, false, false, false, false⟩ else t1.kern x } : St) :=
        ⟨hr1, rfl, fun _ => rfl, fun _ => rfl, fun _ => rfl⟩
      generalize hk1 : ({ t1 with kern := fun x => if x = f0 then some ⟨false, false, false, false, false⟩ else t1.kern x } : St) = t2 at hr1 hq1
      have hq2 := quiet_remove t2 hr1 f0
      have hQ := (hq.trans hq1).trans hq2
      cases hw : ((removeOld t2 f0).fd f0).want.any with
      | true =>
        have hlt : f0 < (removeOld t2 f0).map.length := by
          refine Nat.lt_of_not_le (fun hle => ?_)
          have : (removeOld t2 f0).fd f0 = .new := by simp [St.fd, List.getD, hle]
          rw [this] at hw; simp [Fd.new, Want.zero, Want.any] at hw
        refine ⟨fun f fl d t h => ?_, fun r t h hn => ?_⟩
        · simp only [answer, hk1, hw, if_true, Prod.mk.injEq, Res.event.injEq] at h
          obtain ⟨⟨rfl, rfl, rfl⟩, rfl⟩ := h
          refine ⟨⟨_, hQ, (removeOld_mem t2 hr1 f0).2, hlt, rfl, rfl⟩, fun _ => ⟨?_, e, rfl, rfl⟩⟩
          rw [← hQ.want]; exact hw
        · simp only [answer, hk1, hw, if_true, Prod.mk.injEq] at h
          exact absurd h.1.symm (hn _ _ _)
      | false =>
        refine ⟨fun f fl d t h => by simp [answer, hk1, hw] at h, fun r t h _ => ?_⟩
        simp only [answer, hk1, hw, Bool.false_eq_true, if_false, Prod.mk.injEq] at h
        rw [← h.2]; exact hQ
  · obtain ⟨h1, h2, h3⟩ := hx.1 o d t1 p he
    simp only []
    refine ⟨fun f fl d' t h => ?_, fun r t h hn => ?_⟩
    · simp only [Prod.mk.injEq, Res.event.injEq] at h
      obtain ⟨⟨rfl, rfl, rfl⟩, rfl⟩ := h
      exact ⟨h1, fun h => by simp [Want.zero, Want.any] at h⟩
    · simp only [Prod.mk.injEq] at h
      exact absurd h.1.symm (hn _ _ _)

/-- What a call of `wait` does. -/
theorem wait_spec (tm : Option Nat) : ∀ (ks : List (Nat × Kern)) (s : St), Refs s →
    (∀ f fl d t, wait tm ks s = (.event f fl d, t) →
      Told s t f d ∧ (fl.any = true → (s.fd f).want.any = true ∧ ∃ now e, (now, .ev f e) ∈ ks ∧ fl = e.flags)) ∧
    (∀ r t, wait tm ks s = (r, t) → (∀ f fl d, r ≠ .event f fl d) → Quiet s t)
  | [], s, hr => by
    refine ⟨fun f fl d t h => by simp [wait] at h, fun r t h _ => ?_⟩
    simp only [wait, Prod.mk.injEq] at h
    rw [← h.2]; exact quiet_refl hr
  | (now, k) :: ks, s, hr => by
    have ht := turn_spec s hr tm now k
    rcases he : turn s tm now k with ⟨r, s1⟩
    by_cases hm : r = .more
    · subst hm
      have hq := ht.2 .more s1 he (by simp)
      have ih := wait_spec tm ks s1 hq.refs
      have e : wait tm ((now, k) :: ks) s = wait tm ks s1 := by simp [wait, he]
      rw [e]
      refine ⟨fun f fl d t h => ?_, fun r t h hn => hq.trans (ih.2 r t h hn)⟩
      obtain ⟨⟨u, a, b, c, d1, d2⟩, h2⟩ := ih.1 f fl d t h
      refine ⟨⟨u, hq.trans a, b, c, d1, d2⟩, fun hf => ?_⟩
      obtain ⟨x, now', e', y, z⟩ := h2 hf
      exact ⟨by rw [← hq.want]; exact x, now', e', List.mem_cons_of_mem _ y, z⟩
    · have e : wait tm ((now, k) :: ks) s = (r, s1) := by
        cases r <;> simp_all [wait]
      rw [e]
      refine ⟨fun f fl d t h => ?_, fun r' t h hn => ?_⟩
      · simp only [Prod.mk.injEq] at h
        obtain ⟨rfl, rfl⟩ := h
        obtain ⟨h1, h2⟩ := ht.1 f fl d s1 he
        refine ⟨h1, fun hf => ?_⟩
        obtain ⟨x, e', y, z⟩ := h2 hf
        exact ⟨x, now, e', by rw [y]; simp, z⟩
      · simp only [Prod.mk.injEq] at h
        obtain ⟨rfl, rfl⟩ := h
        exact ht.2 r s1 he hn

theorem wait_refs (tm : Option Nat) (ks : List (Nat × Kern)) (s : St) (hr : Refs s) : Refs (wait tm ks s).2 := by
  have h := wait_spec tm ks s hr
  rcases he : wait tm ks s with ⟨r, t⟩
  by_cases hx : ∃ f fl d, r = .event f fl d
  · obtain ⟨f, fl, d, rfl⟩ := hx
    exact (h.1 f fl d t he).1.refs
  · exact (h.2 r t he (fun f fl d e => hx ⟨f, fl, d, e⟩)).refs

theorem set_refs (s : St) (hr : Refs s) (f : Nat) (w : Want) (tm : Option Nat) (d : Nat) : Refs (set s f w tm d).2 := by
  have h := (charge_spec s hr f w tm d).1
  unfold set
  split
  · exact hr
  · simp only []
    split
    · exact h
    · exact h

theorem refs_run (ops : List Op) : Refs (run ops) := by
  have : ∀ (l : List Op) (s : St), Refs s → Refs (l.foldl step s) := by
    intro l
    induction l with
    | nil => intro s h; exact h
    | cons o l ih =>
      intro s h
      refine ih _ ?_
      cases o with
      | set f w tm d => exact set_refs s h f w tm d
      | wait tm ks => exact wait_refs tm ks s h
      | wake r => exact h
      | cancel => intro i hi; simp [step, cancelAll] at hi
      | close f => exact h
      | open' f => exact h
  exact this ops init (by intro i hi; simp [init] at hi)

/-- C148: registering a descriptor, after any calls. What is asked for is recorded, the kernel is told, the timeout is kept
exactly when it is finite; nothing changes for the others, but for timeouts of others when this descriptor has an old
reference (`C148_stolen_violated`). -/
theorem C148_set_partial (ops : List Op) (f : Nat) (w : Want) (tm : Option Nat) (d : Nat) (t : St)
    (h : set (run ops) f w tm d = (.ok, t)) :
    ((t.fd f).tm = tm ∧ (t.fd f).want = w ∧ (t.fd f).data = d) ∧ getData t f = d ∧
    t.kern f = some ⟨w.inp, w.out, w.exc, true, true⟩ ∧ (f ∈ t.heap ↔ tm ≠ none) ∧
    (∀ g, g ≠ f → (t.fd g).tm = ((run ops).fd g).tm ∧ (t.fd g).want = ((run ops).fd g).want ∧
      (t.fd g).data = ((run ops).fd g).data ∧ t.kern g = (run ops).kern g ∧ (g ∈ t.heap → g ∈ (run ops).heap)) ∧
    (((run ops).fd f).ref = none ∨ f ∈ (run ops).heap → ∀ g, g ≠ f → (g ∈ t.heap ↔ g ∈ (run ops).heap)) := by
  obtain ⟨_, a2, a3, a4, a5, a6, a7, _, _, _, a11⟩ := charge_spec (run ops) (refs_run ops) f w tm d
  unfold set at h
  split at h
  · simp at h
  · simp only [] at h
    split at h
    · simp only [Prod.mk.injEq, true_and] at h
      subst h
      refine ⟨a2, ?_, by simp [Want.ev], a4, fun g hg => ⟨(a3 g hg).1, (a3 g hg).2.1, (a3 g hg).2.2, ?_, a6 g hg⟩, a5⟩
      · have : ¬ (charge (run ops) f w tm d).map.length ≤ f := by
          rw [a11]; exact Nat.not_le.2 (grow_len _ f).1
        unfold getData
        simp only [this, if_false]
        exact a2.2.2
      · simp [hg, a7]
    · simp at h

example : ((set (run [.set 3 ⟨true, false, false⟩ (some 50) 7, .set 5 ⟨false, true, false⟩ (some 20) 8]) 3
      ⟨false, true, false⟩ none 9).2.heap = [5]) ∧
    (set (run [.set 3 ⟨true, false, false⟩ (some 50) 7, .set 5 ⟨false, true, false⟩ (some 20) 8]) 3
      ⟨false, true, false⟩ none 9).1 = .ok := by decide +kernel

/-- C148: waiting is for one event. When a descriptor is told, its data are the registered ones, it is not waited for any
more and has no timeout; flags are told only for a descriptor that was waited for, and they are the ones of an event of the
kernel; the other descriptors stay as they were. -/
theorem C148_told (ops : List Op) (tm : Option Nat) (ks : List (Nat × Kern)) (f : Nat) (fl : Want) (d : Nat) (t : St)
    (h : wait tm ks (run ops) = (.event f fl d, t)) :
    d = ((run ops).fd f).data ∧ (t.fd f).want = .zero ∧ f ∉ t.heap ∧
    (fl.any = true → ((run ops).fd f).want.any = true ∧ ∃ now e, (now, .ev f e) ∈ ks ∧ fl = e.flags) ∧
    (∀ g, g ≠ f → (t.fd g).tm = ((run ops).fd g).tm ∧ (t.fd g).want = ((run ops).fd g).want ∧
      (t.fd g).data = ((run ops).fd g).data) := by
  obtain ⟨⟨u, q, h1, h2, h3, rfl⟩, h4⟩ := (wait_spec tm ks _ (refs_run ops)).1 f fl d t h
  refine ⟨by rw [h3, q.data], by rw [fd_put _ _ _ _ h2, if_pos rfl], h1, h4, fun g hg => ?_⟩
  rw [fd_put _ _ _ _ h2, if_neg hg]
  exact ⟨q.tm g, q.want g, q.data g⟩

example : (wait none [(10, .intr), (11, .ev 3 ⟨true, false, false, false, true⟩)]
      (run [.set 3 ⟨true, false, false⟩ (some 50) 7, .set 5 ⟨false, true, false⟩ (some 20) 8])).1 =
    .event 3 ⟨true, false, false⟩ 7 := by decide +kernel

/-- C148: waiting that ends without a descriptor changes nothing for the descriptors. -/
theorem C148_untold (ops : List Op) (tm : Option Nat) (ks : List (Nat × Kern)) (r : Res) (t : St)
    (h : wait tm ks (run ops) = (r, t)) (hn : ∀ f fl d, r ≠ .event f fl d) (g : Nat) :
    (t.fd g).tm = ((run ops).fd g).tm ∧ (t.fd g).want = ((run ops).fd g).want ∧
      (t.fd g).data = ((run ops).fd g).data := by
  have q := (wait_spec tm ks _ (refs_run ops)).2 r t h hn
  exact ⟨q.tm g, q.want g, q.data g⟩

example : (wait (some 5) [(0, .intr), (1, .over 6)] (run [.set 3 ⟨true, false, false⟩ (some 50) 7])).1 = .timeout := by
  decide +kernel

/-- C148: one descriptor with a time, for whatever it waits: it is told exactly when the time is before the clock. -/
theorem C148_one (f : Nat) (w : Want) (t d now : Nat) (hf : f ≤ 1024) :
    (wait none [(now, .intr)] (run [.set f w (some t) d])).1 =
      if t < now ∧ w ≠ ⟨false, false, false⟩ then .event f ⟨false, false, false⟩ d else .more := by
  have hany : w.any = true ↔ w ≠ ⟨false, false, false⟩ := by
    rcases w with ⟨a, b, c⟩
    cases a <;> cases b <;> cases c <;> decide
  obtain ⟨a1, a2, _, a4, _, a6, _, a8, _⟩ := charge_spec init (refs_run []) f w (some t) d
  have hrun : run [.set f w (some t) d] =
      ({ charge init f w (some t) d with kern := fun x => if x = f then some w.ev else (charge init f w (some t) d).kern x } : St) := by
    show (set init f w (some t) d).2 = _
    unfold set
    rw [if_neg (by omega)]
    simp only []
    rw [if_pos (by rw [a8]; rfl)]
  have hr := refs_run [.set f w (some t) d]
  have hfd : (run [.set f w (some t) d]).fd f = (charge init f w (some t) d).fd f := by rw [hrun]; rfl
  have hhp : (run [.set f w (some t) d]).heap = (charge init f w (some t) d).heap := by rw [hrun]
  generalize run [.set f w (some t) d] = s at hr hfd hhp
  have hmem : ∀ g, g ∈ s.heap ↔ g = f := by
    intro g
    rw [hhp]
    constructor
    · intro h
      refine Decidable.byContradiction (fun hg => ?_)
      have := a6 g hg h
      simp [init] at this
    · intro h; rw [h]; exact a4.2 (by simp)
  have hheap : s.heap = [f] := by
    have hn := hr.nodup
    rcases hh : s.heap with _ | ⟨x, _ | ⟨y, l⟩⟩
    · have := (hmem f).2 rfl; rw [hh] at this; cases this
    · rw [(hmem x).1 (by rw [hh]; simp)]
    · rw [hh] at hn
      have e1 := (hmem x).1 (by rw [hh]; simp)
      have e2 := (hmem y).1 (by rw [hh]; simp)
      rw [e1, e2] at hn
      simp at hn
  obtain ⟨r1, _, _⟩ := removeOld_spec s hr f
  have hp := (removeOld_mem s hr f).1 ((hmem f).2 rfl)
  have hnil : (removeOld s f).heap = [] := by
    have := hp.length_eq
    rw [hheap] at this
    simpa using this
  have htm : (s.fd f).tm = some t := by rw [hfd]; exact a2.1
  have hw : ((removeOld s f).fd f).want = w := by rw [r1.want, hfd]; exact a2.2.1
  have hd : ((removeOld s f).fd f).data = d := by rw [r1.data, hfd]; exact a2.2.2
  have he : expire now (s.heap.length + 1) s = if t < now then
      (if w.any then (some (f, d), (removeOld s f).put f { (removeOld s f).fd f with want := .zero }, none)
       else (none, removeOld s f, some t)) else (none, s, some t) := by
    unfold expire
    rw [hheap]
    simp only [expired, htm, hw, hd, hnil, decide_eq_true_eq, List.isEmpty_nil, if_true]
  by_cases h1 : t < now
  · by_cases h2 : w.any = true
    · rw [if_pos ⟨h1, hany.1 h2⟩]
      simp only [wait, turn]
      rw [he, if_pos h1, if_pos h2]
      rfl
    · rw [if_neg (fun h => h2 (hany.2 h.2))]
      simp only [wait, turn]
      rw [he, if_pos h1, if_neg h2]
      rfl
  · rw [if_neg (fun h => h1 h.1)]
    simp only [wait, turn]
    rw [he, if_neg h1]
    rfl

example : (wait none [(6, .intr)] (run [.set 3 ⟨false, false, true⟩ (some 5) 9])).1 = .event 3 .zero 9 ∧
    (wait none [(5, .intr)] (run [.set 3 ⟨false, false, true⟩ (some 5) 9])).1 = .more := by decide +kernel

/-- C148: the flags. An event that the kernel may tell for what was asked gives input and output only when they were asked
for, and the exception only when it was asked for or on an error. -/
theorem C148_flags (w : Want) (e : Ev) (h1 : e.inp = true → w.ev.inp = true) (h2 : e.out = true → w.ev.out = true)
    (h3 : e.pri = true → w.ev.pri = true) :
    (e.flags.inp = true ↔ e.inp = true ∧ w.inp = true) ∧ (e.flags.out = true ↔ e.out = true ∧ w.out = true) ∧
    (e.flags.exc = true ↔ (e.pri = true ∧ w.exc = true) ∨ e.err = true) := by
  cases w; cases e
  simp only [Want.ev, Ev.flags] at *
  grind

example : (⟨true, false, false, true, false⟩ : Ev).flags = ⟨true, false, true⟩ := by decide

/-- The heap is in order: no place is later than one below it. -/
def Ordered (s : St) : Prop := ∀ i, 0 < i → i < s.heap.length → s.later ((i - 1) / 2) i = false

theorem tmLess_trans (a b c : Option Nat) (h1 : tmLess b a = false) (h2 : tmLess c b = false) : tmLess c a = false := by
  cases a <;> cases b <;> cases c <;> simp_all [tmLess]
  omega

theorem top_first (s : St) (h : Ordered s) : ∀ (n i : Nat), i ≤ n → i < s.heap.length →
    tmLess (s.fd (s.own i)).tm (s.fd (s.own 0)).tm = false := by
  intro n
  induction n with
  | zero =>
    intro i hi _
    have : i = 0 := by omega
    subst this
    cases (s.fd (s.own 0)).tm <;> simp [tmLess]
  | succ n ih =>
    intro i hi hl
    by_cases h0 : i = 0
    · exact ih i (by omega) hl
    · exact tmLess_trans _ _ _ (ih ((i - 1) / 2) (by omega) (by omega)) (h i (by omega) hl)

/-- C148: timeouts, while the heap is in order and every descriptor in it is waited for. When some time is over, the
descriptor with the earliest one is told at once, with no flags; when none is over, the kernel is asked. Missing: the heap
does not stay in order (`C148_order_violated`). -/
theorem C148_due_partial (ops : List Op) (ho : Ordered (run ops))
    (hw : ∀ g ∈ (run ops).heap, ((run ops).fd g).want.any = true) (tm : Option Nat) (now : Nat) (k : Kern) :
    ((∃ g ∈ (run ops).heap, expired ((run ops).fd g).tm now = true) →
      ∃ o d, (turn (run ops) tm now k).1 = .event o .zero d ∧ d = ((run ops).fd o).data ∧ o ∈ (run ops).heap ∧
        ∀ g ∈ (run ops).heap, tmLess ((run ops).fd g).tm ((run ops).fd o).tm = false) ∧
    ((∀ g ∈ (run ops).heap, expired ((run ops).fd g).tm now = false) → turn (run ops) tm now k = answer (run ops) tm k) := by
  have hr := refs_run ops
  generalize run ops = s at *
  cases hh : s.heap with
  | nil =>
    refine ⟨fun ⟨g, hg, _⟩ => by simp at hg, fun _ => ?_⟩
    simp [turn, expire, hh]
  | cons o l =>
    have h0 : s.own 0 = o := by simp [St.own, hh]
    have hmem : o ∈ s.heap := by rw [hh]; simp
    have hmin : ∀ g ∈ s.heap, tmLess (s.fd g).tm (s.fd o).tm = false := by
      intro g hg
      obtain ⟨i, hi, e⟩ := mem_own hg
      have := top_first s ho i i (Nat.le_refl _) hi
      rw [h0, e] at this
      exact this
    have hq := quiet_remove s hr o
    rw [← hh]
    refine ⟨fun ⟨g, hg, he⟩ => ⟨o, (s.fd o).data, ?_, rfl, hmem, hmin⟩, fun hn => ?_⟩
    · have hx : expired (s.fd o).tm now = true := by
        have := hmin g hg
        cases ha : (s.fd g).tm <;> cases hb : (s.fd o).tm <;> simp_all [expired, tmLess]
        omega
      have hw' : ((removeOld s o).fd o).want.any = true := by rw [hq.want]; exact hw o hmem
      simp only [turn, expire, hh, hx, hw', if_true, hq.data]
    · have hx := hn o hmem
      simp [turn, expire, hh, hx]

example : Ordered (run [.set 3 ⟨true, false, false⟩ (some 50) 7, .set 5 ⟨false, true, false⟩ (some 20) 8]) ∧
    (turn (run [.set 3 ⟨true, false, false⟩ (some 50) 7, .set 5 ⟨false, true, false⟩ (some 20) 8]) none 60 .intr).1 =
      .event 5 .zero 8 := by
  refine ⟨?_, by decide +kernel⟩
  have : (run [.set 3 ⟨true, false, false⟩ (some 50) 7, .set 5 ⟨false, true, false⟩ (some 20) 8]).heap.length = 2 := by
    decide +kernel
  intro i h1 h2
  have : i = 1 := by omega
  subst this
  decide +kernel

/-- C148: `cancelAll` calls the callback once for each descriptor that is waited for, in order, with its data; afterwards
nothing is waited for and there are no timeouts. -/
theorem C148_cancel (s : St) :
    (∀ f d, (f, d) ∈ (cancelAll s).1 ↔ (s.fd f).want.any = true ∧ d = (s.fd f).data) ∧
    ((cancelAll s).1.map (·.1)).Pairwise (· < ·) ∧ (cancelAll s).2.heap = [] ∧
    ∀ f, ((cancelAll s).2.fd f).want.any = false := by
  refine ⟨?_, ?_, rfl, ?_⟩
  · intro f d
    simp only [cancelAll, List.mem_filterMap, List.mem_range]
    constructor
    · rintro ⟨a, ha, h⟩
      split at h
      · next hw => simp only [Option.some.injEq, Prod.mk.injEq] at h; obtain ⟨rfl, rfl⟩ := h; exact ⟨hw, rfl⟩
      · cases h
    · rintro ⟨h1, rfl⟩
      refine ⟨f, ?_, by rw [if_pos h1]⟩
      refine Nat.lt_of_not_le (fun hle => ?_)
      have : s.fd f = .new := by simp [St.fd, List.getD, hle]
      rw [this] at h1; simp [Fd.new, Want.zero, Want.any] at h1
  · simp only [cancelAll, List.pairwise_map, List.pairwise_filterMap]
    refine List.Pairwise.imp ?_ List.pairwise_lt_range
    intro a b hab x hx y hy
    split at hx <;> split at hy <;> simp_all
    rw [← hx, ← hy]; exact hab
  · intro f
    simp only [cancelAll, St.fd, List.getD, List.getElem?_map]
    cases s.map[f]? with
    | none => rfl
    | some d =>
      show (if d.want.any = true then _ else d : Fd).want.any = false
      split
      · rfl
      · next h => simpa using h

example : (cancelAll (run [.set 3 ⟨true, false, false⟩ (some 50) 7, .set 5 ⟨false, true, false⟩ none 8])).1 =
    [(3, 7), (5, 8)] := by decide +kernel

/-- C148: each wake-up is told once, with the reason of the last one. -/
theorem C148_wake (s : St) (r : Nat) (tm : Option Nat) (now : Nat) (h : s.heap = []) :
    (turn (wakeUp s r) tm now .pipe).1 = .woken r ∧ (turn (wakeUp s r) tm now .pipe).2.wakes = s.wakes := by
  have : turn (wakeUp s r) tm now .pipe = answer (wakeUp s r) tm .pipe := by
    have e : (wakeUp s r).heap = [] := h
    simp [turn, expire, e]
  rw [this]
  simp [answer, wakeUp]

example : (turn (wakeUp (wakeUp init 4) 5) none 0 .pipe).1 = .woken 5 := by decide +kernel

/-- The requests of the next theorem: seven descriptors with the times 1, 2, 10, 3, 4, 11, 12 ms. -/
def seven : List Op :=
  [.set 1 ⟨true, false, false⟩ (some 1000) 1, .set 2 ⟨true, false, false⟩ (some 2000) 2,
   .set 3 ⟨true, false, false⟩ (some 10000) 3, .set 4 ⟨true, false, false⟩ (some 3000) 4,
   .set 5 ⟨true, false, false⟩ (some 4000) 5, .set 6 ⟨true, false, false⟩ (some 11000) 6,
   .set 7 ⟨true, false, false⟩ (some 12000) 7, .set 2 ⟨false, false, false⟩ none 0,
   .wait none [(1500, .intr)]]

/-- C148 is violated: when a descriptor is taken out of the middle, `pop(at)` repairs the heap from the root. After the
second of `seven` has been unset and the first has been told, the descriptor 4 with the time of 3 ms is not told at 3.5 ms:
the kernel is asked to wait for 6 more milliseconds. -/
theorem C148_order_violated :
    ((run seven).fd 4).want.any = true ∧ 4 ∈ (run seven).heap ∧ expired ((run seven).fd 4).tm 3500 = true ∧
    (turn (run seven) none 3500 .intr).1 = .more ∧
    ms (finTm none (expire 3500 7 (run seven)).2.2) 3500 = some 6 := by
  decide +kernel

/-- C148 is violated: taking a timeout out of the heap writes the reference of its owner again (the exchange with the last
place does), so a descriptor that was told keeps a reference to a place that others get. When it is registered again, the
timeout of another descriptor is removed: the descriptor 3 is waited for with a time and is never told. -/
theorem C148_stolen_violated :
    let s := run [.set 1 ⟨true, false, false⟩ (some 5000) 1, .set 2 ⟨true, false, false⟩ (some 7000) 2,
      .wait none [(0, .ev 1 ⟨true, false, false, false, false⟩)], .set 3 ⟨true, false, false⟩ (some 9000) 3]
    3 ∈ s.heap ∧ 3 ∉ (set s 1 ⟨true, false, false⟩ none 1).2.heap ∧
    ((set s 1 ⟨true, false, false⟩ none 1).2.fd 3).want.any = true ∧
    (wait none [(20000, .intr), (30000, .intr)] (wait none [(20000, .intr)] (set s 1 ⟨true, false, false⟩ none 1).2).2).1 =
      .more := by
  decide +kernel

/-- C148 is violated: the waiting of the kernel is rounded down to milliseconds, so it may be over before the time given to
`wait`, and then a descriptor is told as timed out, whatever its own time is. -/
theorem C148_early_violated :
    let s := run [.set 1 ⟨true, false, false⟩ (some 1000000000) 1]
    ms (finTm (some 1500) (some 1000000000)) 0 = some 1 ∧
    (wait (some 1500) [(0, .over 1000)] s).1 = .event 1 .zero 1 := by
  decide +kernel

/-- C148 is violated: in the same case without any timeout registered the top of the empty heap is read. -/
theorem C148_empty_violated :
    ms (finTm (some 1500) none) 0 = some 1 ∧
    (wait (some 1500) [(0, .over 1000)] (run [.set 1 ⟨true, false, false⟩ none 1])).1 = .exn := by
  decide +kernel

/-- C148 is violated: so it is after the time of a descriptor that is not waited for, even when `wait` has no limit: the time
that is over still counts as limit. -/
theorem C148_idle_violated :
    let s := run [.set 1 .zero (some 5) 0]
    ms (finTm none (expire 10 2 s).2.2) 10 = some 0 ∧ (wait none [(10, .over 10)] s).1 = .exn := by
  decide +kernel

/-- C148 is violated: a descriptor above 1024 is refused until enough lower ones have been registered. -/
theorem C148_high_violated :
    (set (run []) 1025 ⟨true, false, false⟩ none 1).1 = .refused ∧
    (set (run [.set 300 ⟨true, false, false⟩ none 1]) 1025 ⟨true, false, false⟩ none 1).1 = .ok := by
  decide +kernel

/-- C148 is violated: a hang-up alone is told without flags, as if the time were over. -/
theorem C148_hup_violated :
    (wait none [(0, .ev 1 ⟨false, false, false, false, true⟩)] (run [.set 1 ⟨true, true, true⟩ none 1])).1 =
      .event 1 .zero 1 := by
  decide +kernel

/-- C148 is violated: a descriptor that `epoll_ctl` does not take is recorded all the same, with its data and its time, and
is told later. -/
theorem C148_failed_violated :
    (set (run [.close 4]) 4 ⟨true, false, false⟩ (some 5) 9).1 = .failed ∧
    getData (set (run [.close 4]) 4 ⟨true, false, false⟩ (some 5) 9).2 4 = 9 ∧
    (wait none [(10, .intr)] (set (run [.close 4]) 4 ⟨true, false, false⟩ (some 5) 9).2).1 = .event 4 .zero 9 := by
  decide +kernel

/-- C148 is violated by `PollSelect`, which uses the codes of SIGPOLL: waiting for output does not ask for POLLOUT (4) but for
POLLPRI (2), waiting for an exception asks for input and output; the answer POLLIN (1) is told as input and exception,
POLLOUT as exception, POLLERR (8) as nothing. -/
theorem C148_poll_violated :
    pollMask ⟨false, true, false⟩ &&& 4 = 0 ∧ pollMask ⟨false, false, true⟩ = 1 ||| 4 ∧
    pollFlags 1 = ⟨true, false, true⟩ ∧ pollFlags 4 = ⟨false, false, true⟩ ∧ pollFlags 8 = .zero := by
  decide +kernel

end LS.Epoll

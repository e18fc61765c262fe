import Verif.BTreeRemoveProps
import Verif.BTreeIter
/-
B-tree iterator: C96 (iteration), C97 (iteration from a key).
-/
namespace LS.BTree

open Spec

section

variable {α : Type} {less : α → α → Bool}

/-- The items behind the open subtrees of a path. -/
def upper : List (Entry α) → List α
  | [] => []
  | ⟨0, _, _⟩ :: p => upper p
  | ⟨_ + 1, n, i⟩ :: p => post ((NodeF.items n).drop i.toNat) (((NodeF.subs n).map toList).drop (i.toNat + 1)) ++ upper p

/-- The items behind a path. -/
def rest : List (Entry α) → List α
  | [] => []
  | ⟨0, n, i⟩ :: p => (NodeF.items n).drop (i + 1).toNat ++ upper p
  | ⟨_ + 1, n, i⟩ :: p => inter (((NodeF.subs n).map toList).drop (i + 1).toNat) ((NodeF.items n).drop (i + 1).toNat) ++ upper p

/-- The upper part of a path, from height `h + 1` to the root of height `H`. -/
inductive Up (order H : Nat) : Nat → List (Entry α) → Prop
  | nil : Up order H H []
  | cons {h : Nat} {n : Node α (h + 1)} {i : Int} {p : List (Entry α)} : WF order 1 n → 0 ≤ i → i ≤ (items n).length → Up order H (h + 1) p → Up order H h (⟨h + 1, n, i⟩ :: p)

theorem up_length {order H h : Nat} {p : List (Entry α)} (hu : Up order H h p) : p.length + h = H := by
  induction hu with
  | nil => rw [List.length_nil]; omega
  | cons _ _ _ _ ih => rw [List.length_cons]; omega

/-- A path with the node of the current item first. -/
inductive Good (order H : Nat) : List (Entry α) → Prop
  | nil : Good order H []
  | cons {h : Nat} {n : Node α h} {i : Int} {p : List (Entry α)} : WF order 1 n → -1 ≤ i → i < (items n).length → Up order H h p → Good order H (⟨h, n, i⟩ :: p)

theorem wf_child {order : Nat} (ho : 2 ≤ order) {lo h : Nat} {n : Node α (h + 1)} (hw : WF order lo n) {s : Node α h} (hs : s ∈ NodeF.subs n) : WF order 1 s := by
  have := hw.2.2.2.2 s hs
  exact wf_lo this (by have := (wf_items this).1; omega)

theorem drop_eq_cons {β : Type} {l : List β} {k : Nat} (h : k < l.length) : l.drop k = l[k] :: l.drop (k + 1) := (List.getElem_cons_drop (h := h)).symm

theorem leftmost_spec {order H : Nat} (ho : 2 ≤ order) (hH : H < 50) : ∀ {h : Nat} (n : Node α h) (p : List (Entry α)), WF order 1 n → Up order H h p →
    ∃ a p', leftmost n p = some (a, p') ∧ toList n ++ upper p = a :: rest p' ∧ Good order H p' ∧ p' ≠ []
  | 0, n, p, hw, hu => by
    have hl := up_length hu
    have h1 := hw.1
    match eI : NodeF.items n with
    | [] => rw [eI] at h1; simp at h1
    | a :: I =>
      refine ⟨a, ⟨0, n, 0⟩ :: p, ?_, ?_, .cons hw (by omega) (by show 0 < ((NodeF.items n).length : Int); omega) hu, by simp⟩
      · rw [leftmost, if_neg (by omega), eI]
      · show NodeF.items n ++ _ = a :: ((NodeF.items n).drop 1 ++ _)
        rw [eI]; rfl
  | h + 1, n, p, hw, hu => by
    have hl := up_length hu
    obtain ⟨h1, -, hsub, -, hc⟩ := id hw
    match eS : NodeF.subs n with
    | [] => rw [eS] at hsub; cases hsub
    | s :: S =>
      obtain ⟨a, p', e, e2, hg, hne⟩ := leftmost_spec ho hH s (⟨h + 1, n, 0⟩ :: p) (wf_child ho hw (by rw [eS]; simp)) (.cons hw (by omega) (by omega) hu)
      refine ⟨a, p', ?_, ?_, hg, hne⟩
      · rw [leftmost, if_neg (by omega), eS]
        exact e
      · rw [← e2]
        show inter ((NodeF.subs n).map toList) (NodeF.items n) ++ _ = toList s ++ (post (NodeF.items n) (((NodeF.subs n).map toList).drop 1) ++ upper p)
        rw [eS] at hsub
        rw [eS, List.map_cons, inter_post _ _ _ (by rw [List.length_map]; simpa using hsub)]
        simp

theorem moveUp_spec {order H : Nat} {h : Nat} {p : List (Entry α)} (hu : Up order H h p) :
    ∃ a p', moveUp p = some (a, p') ∧ Good order H p' ∧ ((a = none ∧ upper p = [] ∧ p' = []) ∨ ∃ y, a = some y ∧ upper p = y :: rest p') := by
  induction hu with
  | nil => exact ⟨none, [], rfl, .nil, .inl ⟨rfl, rfl, rfl⟩⟩
  | @cons h n i p hw h0 hi hu ih =>
    by_cases hlt : i ≥ ((items n).length : Int)
    · obtain ⟨a, p', e, hg, hr⟩ := ih
      have eu : upper (⟨h + 1, n, i⟩ :: p) = upper p := by
        show post ((NodeF.items n).drop i.toNat) _ ++ upper p = _
        rw [List.drop_of_length_le (by change _ ≥ (((NodeF.items n).length : Nat) : Int) at hlt; omega)]
        rfl
      refine ⟨a, p', by rw [moveUp, if_pos hlt, e], hg, ?_⟩
      rw [eu]
      exact hr
    · have hlt' : i.toNat < (NodeF.items n).length := by
        change ¬ _ ≥ (((NodeF.items n).length : Nat) : Int) at hlt
        omega
      have hsub := hw.2.2.1
      refine ⟨some (NodeF.items n)[i.toNat], ⟨h + 1, n, i⟩ :: p, ?_, .cons hw (by omega) (by omega) hu, .inr ⟨_, rfl, ?_⟩⟩
      · rw [moveUp, if_neg hlt, if_neg (by show ¬ i < 0; omega)]
        show (match (NodeF.items n)[i.toNat]? with | none => none | some a => _) = _
        rw [List.getElem?_eq_getElem hlt']
      · show post ((NodeF.items n).drop i.toNat) (((NodeF.subs n).map toList).drop (i.toNat + 1)) ++ upper p =
          _ :: (inter (((NodeF.subs n).map toList).drop (i + 1).toNat) ((NodeF.items n).drop (i + 1).toNat) ++ upper p)
        rw [show (i + 1).toNat = i.toNat + 1 by omega, drop_eq_cons hlt', drop_eq_cons (l := (NodeF.subs n).map toList) (k := i.toNat + 1) (by rw [List.length_map]; omega),
          inter_post _ _ _ (by simp only [List.length_drop, List.length_map]; omega), post]
        rfl

/-- `Next` gives the first of the items behind the path. -/
theorem next_spec {t : Tree α} (hw : 2 ≤ t.order) {H : Nat} (hH : H < 50) {it : Iter α} (hg : Good t.order H it.path) (hi : it.index < t.size) :
    ∃ a it', next t it = some (a, it') ∧ Good t.order H it'.path ∧
      ((a = none ∧ rest it.path = [] ∧ it'.path = []) ∨ ∃ y, a = some y ∧ rest it.path = y :: rest it'.path ∧ it'.index = it.index + 1) := by
  obtain ⟨path, index⟩ := it
  have hlt : ¬ index ≥ t.size := by change index < _ at hi; omega
  cases hg with
  | nil => exact ⟨none, ⟨[], index⟩, by rw [next, if_neg hlt], .nil, .inl ⟨rfl, rfl, rfl⟩⟩
  | @cons h n i p hwn h1 h2 hu =>
    match h, n, hwn, h2, hu with
    | 0, n, hwn, h2, hu =>
      change i < ((NodeF.items n).length : Int) at h2
      by_cases hend : i ≥ ((NodeF.items n).length : Int) - 1
      · obtain ⟨a, p', e, hg, hr⟩ := moveUp_spec hu
        have er : rest (⟨0, n, i⟩ :: p) = upper p := by
          show (NodeF.items n).drop (i + 1).toNat ++ upper p = _
          rw [List.drop_of_length_le (by omega)]
          rfl
        refine ⟨a, ⟨p', index + 1⟩, ?_, hg, ?_⟩
        · rw [next, if_neg hlt]
          simp only
          rw [if_pos hend, e]
        · show (a = none ∧ rest (⟨0, n, i⟩ :: p) = [] ∧ p' = []) ∨ ∃ y, a = some y ∧ rest (⟨0, n, i⟩ :: p) = y :: rest p' ∧ index + 1 = index + 1
          rw [er]
          rcases hr with hr | ⟨y, hy, e⟩
          · exact .inl hr
          · exact .inr ⟨y, hy, e, rfl⟩
      · have hlen : (i + 1).toNat < (NodeF.items n).length := by omega
        refine ⟨some (NodeF.items n)[(i + 1).toNat], ⟨⟨0, n, i + 1⟩ :: p, index + 1⟩, ?_, .cons hwn (by omega) (by show i + 1 < (((NodeF.items n).length : Nat) : Int); omega) hu, .inr ⟨_, rfl, ?_, rfl⟩⟩
        · rw [next, if_neg hlt]
          simp only
          rw [if_neg hend, if_neg (by omega), List.getElem?_eq_getElem hlen]
        · show (NodeF.items n).drop (i + 1).toNat ++ upper p = _ :: ((NodeF.items n).drop (i + 1 + 1).toNat ++ upper p)
          rw [show (i + 1 + 1).toNat = (i + 1).toNat + 1 by omega, drop_eq_cons hlen]
          rfl
    | h + 1, n, hwn, h2, hu =>
      change i < ((NodeF.items n).length : Int) at h2
      have hsub := hwn.2.2.1
      have hlen : (i + 1).toNat < (NodeF.subs n).length := by omega
      obtain ⟨a, p', e, er, hg, hne⟩ := leftmost_spec hw hH (NodeF.subs n)[(i + 1).toNat] (⟨h + 1, n, i + 1⟩ :: p) (wf_child hw hwn (List.getElem_mem hlen))
        (.cons hwn (by omega) (by show i + 1 ≤ (((NodeF.items n).length : Nat) : Int); omega) hu)
      refine ⟨some a, ⟨p', index + 1⟩, ?_, hg, .inr ⟨a, rfl, ?_, rfl⟩⟩
      · rw [next, if_neg hlt]
        simp only
        rw [if_neg (by omega), List.getElem?_eq_getElem hlen]
        simp only
        rw [e]
      · rw [← er]
        show inter (((NodeF.subs n).map toList).drop (i + 1).toNat) ((NodeF.items n).drop (i + 1).toNat) ++ upper p =
          toList (NodeF.subs n)[(i + 1).toNat] ++ (post ((NodeF.items n).drop (i + 1).toNat) (((NodeF.subs n).map toList).drop ((i + 1).toNat + 1)) ++ upper p)
        rw [drop_eq_cons (l := (NodeF.subs n).map toList) (k := (i + 1).toNat) (by rw [List.length_map]; omega),
          inter_post _ _ _ (by simp only [List.length_drop, List.length_map]; omega)]
        simp

/-! ## The whole iteration -/

/-- The loop `while (it.More()) use(it.Next())`: the items with their ranks, and the iterator. -/
def drain (t : Tree α) : Nat → Iter α → Option (List (Option α × Int) × Iter α)
  | 0, it => some ([], it)
  | k + 1, it =>
    if more t it then
      match next t it with
      | none => none
      | some (a, it) => (match drain t k it with | none => none | some (l, it') => some ((a, it.index) :: l, it'))
    else some ([], it)

/-- Numbered items. -/
def numbered : Int → List α → List (Option α × Int)
  | _, [] => []
  | i, a :: l => (some a, i) :: numbered (i + 1) l

theorem drain_spec {t : Tree α} (hw : 2 ≤ t.order) {H : Nat} (hH : H < 50) : ∀ (k : Nat) (it : Iter α), Good t.order H it.path →
    it.index + 1 + (rest it.path).length = t.size → (rest it.path).length ≤ k →
    ∃ it', drain t k it = some (numbered (it.index + 1) (rest it.path), it') ∧ Good t.order H it'.path ∧ rest it'.path = [] ∧ it'.index + 1 = t.size
  | 0, it, hg, hsz, hk => by
    have h0 : rest it.path = [] := List.length_eq_zero_iff.1 (by omega)
    rw [h0] at hsz ⊢
    exact ⟨it, rfl, hg, h0, by simpa using hsz⟩
  | k + 1, it, hg, hsz, hk => by
    rw [drain]
    match er : rest it.path with
    | [] =>
      rw [er] at hsz
      simp at hsz
      rw [if_neg (by simp [more]; omega)]
      exact ⟨it, rfl, hg, er, hsz⟩
    | y :: r =>
      rw [er] at hsz hk
      simp at hsz hk
      obtain ⟨a, it', e, hg', hr⟩ := next_spec hw hH hg (by omega)
      rcases hr with ⟨-, h0, -⟩ | ⟨y', rfl, h1, h2⟩
      · rw [er] at h0; cases h0
      · rw [er] at h1
        injection h1 with h1 h3
        subst h1; subst h3
        obtain ⟨it2, e2, hg2, h4, h5⟩ := drain_spec hw hH k it' hg' (by omega) (by omega)
        rw [if_pos (by simp [more]; omega), e]
        simp only
        rw [e2, h2]
        exact ⟨it2, rfl, hg2, h4, h5⟩

theorem height_lt {t : Tree α} (hw : TreeWF t) (hl : (treeList t).length + 1 < 2 ^ 50) {h : Nat} {n : Node α h} (et : t.root = some ⟨h, n⟩) : WF t.order 1 n ∧ h < 50 ∧ treeList t = toList n ∧ t.size = (toList n).length := by
  obtain ⟨order, root⟩ := t
  obtain ⟨ho, hwn⟩ := hw
  change root = _ at et
  subst et
  refine ⟨hwn, ?_, rfl, wf_size hwn⟩
  have := height ho (by omega) hwn
  have h3 : 2 ^ (h + 1) < 2 ^ 51 := by
    have : (treeList (⟨order, some ⟨h, n⟩⟩ : Tree α)).length = (toList n).length := rfl
    omega
  have := (Nat.pow_lt_pow_iff_right (by omega)).1 h3
  omega

/-- C96: the loop over a well-formed tree gives all items from left to right with ranks 0, 1, …, and then `Next` gives the null pointer. -/
theorem c96_iterate (t : Tree α) (hw : TreeWF t) (hl : (treeList t).length + 1 < 2 ^ 50) (k : Nat) (hk : (treeList t).length ≤ k) :
    ∃ it, drain t k (reset t) = some (numbered 0 (treeList t), it) ∧ more t it = false ∧ ∃ it', next t it = some (none, it') := by
  match et : t.root with
  | none =>
    have e1 : treeList t = [] := by rw [treeList, et]
    have e2 : t.size = 0 := by rw [Tree.size, et]
    have e3 : reset t = ⟨[], -1⟩ := by rw [reset, et]
    rw [e1, e3]
    refine ⟨⟨[], -1⟩, ?_, by simp [more, e2], ⟨[], -1⟩, by rw [next, e2]; rfl⟩
    cases k with
    | zero => rfl
    | succ k => rw [drain, if_neg (by simp [more, e2])]; rfl
  | some ⟨h, n⟩ =>
    obtain ⟨hwn, hh, el, es⟩ := height_lt hw hl et
    have e3 : reset t = ⟨[⟨h, n, -1⟩], -1⟩ := by rw [reset, et]
    have hg : Good t.order h [(⟨h, n, -1⟩ : Entry α)] := .cons hwn (by omega) (by have := (wf_items hwn).1; omega) .nil
    have hrest : rest [(⟨h, n, -1⟩ : Entry α)] = toList n := by
      match h, n with
      | 0, n => simp [rest, upper, toList]
      | h + 1, n => simp [rest, upper, toList]
    obtain ⟨it, e, hg', h1, h2⟩ := drain_spec hw.1 hh k ⟨[⟨h, n, -1⟩], -1⟩ hg (by rw [hrest, es]; simp) (by rw [hrest, ← el]; exact hk)
    rw [e3, el]
    change drain t k _ = some (numbered (-1 + 1) (rest [(⟨h, n, -1⟩ : Entry α)]), it) at e
    rw [hrest] at e
    refine ⟨it, e, by simp [more]; omega, ?_⟩
    obtain ⟨a, it', e', -, hr⟩ := next_spec hw.1 hh hg' (by omega)
    rcases hr with ⟨rfl, -, -⟩ | ⟨y, -, h3, -⟩
    · exact ⟨it', e'⟩
    · rw [h1] at h3; cases h3

/-! ## Start from a key -/

theorem seek_spec (W : Weak less) {order H : Nat} (ho : 2 ≤ order) (hH : H < 50) (x : α) : ∀ {h : Nat} (n : Node α h) (p : List (Entry α)) (index : Int), WF order 1 n → Up order H h p →
    Strict less (toList n) → OnlyLeaf less x n →
    ∃ it A B, seek less x n p index = some it ∧ Good order H it.path ∧ toList n = A ++ B ∧ (∀ a ∈ A, less a x = true) ∧ (∀ a ∈ B, less a x = false) ∧
      rest it.path = B ++ upper p ∧ it.index = index + A.length
  | 0, n, p, index, hw, hu, hs, hx => by
    have hl := up_length hu
    obtain ⟨r, er, hf⟩ := search_spec W x (NodeF.items n) (strict_sorted W hs)
    unfold seek
    rw [if_neg (by omega), er]
    match r, hf with
    | (true, pos), hf =>
      obtain ⟨l1, y, l2, e, hp, hsame⟩ := hf
      change Strict less (NodeF.items n) at hs
      rw [e] at hs
      unfold Strict at hs
      rw [List.pairwise_append, List.pairwise_cons] at hs
      refine ⟨_, l1, y :: l2, rfl, .cons hw ?_ ?_ hu, e, fun a ha => W.lt_le (hs.2.2 a ha y (by simp)) hsame.1, ?_, ?_, ?_⟩
      · simp only [if_true]; omega
      · show _ < (((NodeF.items n).length : Nat) : Int)
        rw [e]; simp; omega
      · intro a ha
        rcases List.mem_cons.1 ha with rfl | ha
        · exact hsame.2
        · exact W.asymm (W.le_lt hsame.2 (hs.2.1.1 a ha))
      · show (NodeF.items n).drop (pos - 1 + 1).toNat ++ upper p = _
        rw [show (pos - 1 + 1).toNat = l1.length by omega, e, List.drop_left]
      · show index + pos = index + l1.length
        rw [hp]
    | (false, pos), hf =>
      obtain ⟨l1, l2, e, hp, h1, h2⟩ := hf
      refine ⟨_, l1, l2, rfl, .cons hw ?_ ?_ hu, e, h1, fun a ha => W.asymm (h2 a ha), ?_, ?_⟩
      · simp; omega
      · show _ < (((NodeF.items n).length : Nat) : Int)
        rw [e]; simp; omega
      · show (NodeF.items n).drop (pos + 1 - 1 + 1).toNat ++ upper p = _
        rw [show (pos + 1 - 1 + 1).toNat = l1.length by omega, e, List.drop_left]
      · show index + (pos + 1) = index + l1.length
        omega
  | h + 1, n, p, index, hw, hu, hs, hx => by
    have hl := up_length hu
    change Strict less (inter ((NodeF.subs n).map toList) (NodeF.items n)) at hs
    obtain ⟨hlo, hhi, hsub, hz, hc⟩ := id hw
    have hsi : Sorted less (NodeF.items n) := (strict_sorted W hs).sublist (items_sub _ _ (by rw [List.length_map]; exact hsub))
    obtain ⟨r, er, hf⟩ := search_spec W x (NodeF.items n) hsi
    match r, hf with
    | (true, pos), hf =>
      obtain ⟨l1, y, l2, e, hp, hsame⟩ := hf
      exact absurd hsame (hx.1 y (by rw [e]; simp))
    | (false, pos), hf =>
      obtain ⟨I1, I2, e, hp, hx1, hx2⟩ := hf
      have ep : (pos + 1).toNat = I1.length := by omega
      have hIl : (NodeF.items n).length = I1.length + I2.length := by rw [e]; simp
      obtain ⟨S1, s, S2, eS, hS1, es⟩ := cut (S := NodeF.subs n) (n := I1.length) (by omega)
      have hS2 : S2.length = I2.length := by
        have := hsub
        rw [eS] at this; simp at this; omega
      have hm1 : (S1.map toList).length = I1.length := by rw [List.length_map]; exact hS1
      have hm2 : (S2.map toList).length = I2.length := by rw [List.length_map]; exact hS2
      have etl : inter ((NodeF.subs n).map toList) (NodeF.items n) = pre (S1.map toList) I1 ++ (toList s ++ post I2 (S2.map toList)) := by
        rw [eS, e, List.map_append, List.map_cons, inter_split _ _ _ _ _ hm1 hm2]
      rw [etl] at hs
      obtain ⟨ha, hb⟩ := around_lt W (strict_sorted W hs) hx1 hx2
      have hss : Strict less (toList s) := by
        unfold Strict at hs ⊢
        rw [List.pairwise_append, List.pairwise_append] at hs
        exact hs.2.1.1
      obtain ⟨c, ec, hc'⟩ := sizes_spec S1 I1 (s :: S2) hS1 (fun s hs => hc s (by rw [eS]; simp [hs]))
      obtain ⟨it, A, B, ei, hg, eAB, hA, hB, h1, h2⟩ := seek_spec W ho hH x s (⟨h + 1, n, pos + 1⟩ :: p) (index + (pos + 1) + c)
        (wf_child ho hw (by rw [eS]; simp)) (.cons hw (by omega) (by show pos + 1 ≤ (((NodeF.items n).length : Nat) : Int); omega) hu) hss (hx.2 s (by rw [eS]; simp))
      refine ⟨it, pre (S1.map toList) I1 ++ A, B ++ post I2 (S2.map toList), ?_, hg, ?_, ?_, ?_, ?_, ?_⟩
      · unfold seek
        rw [if_neg (by omega), er]
        simp only
        rw [ep, es, eS, ec]
        exact ei
      · show inter ((NodeF.subs n).map toList) (NodeF.items n) = _
        rw [etl, eAB]; simp
      · intro a h
        rcases List.mem_append.1 h with h | h
        · exact ha a h
        · exact hA a h
      · intro a h
        rcases List.mem_append.1 h with h | h
        · exact hB a h
        · exact W.asymm (hb a h)
      · rw [h1]
        show B ++ (post ((NodeF.items n).drop (pos + 1).toNat) (((NodeF.subs n).map toList).drop ((pos + 1).toNat + 1)) ++ upper p) = _
        rw [ep, e, eS, List.drop_left, List.map_append, List.map_cons, drop_mid (by rw [hm1])]
        simp
      · rw [h2, List.length_append]
        omega

/-- C97, for a key which is not in an inner node: after `BeginFrom` the loop gives exactly the items which are not smaller, in order,
and with their ranks.  Missing: a key in an inner node, see `c97_inner_violated`. -/
theorem c97_begin_from_partial (W : Weak less) (t : Tree α) (hw : TreeWF t) (hs : Strict less (treeList t)) (hl : (treeList t).length + 1 < 2 ^ 50) (x : α)
    (hx : ∀ h n, t.root = some ⟨h, n⟩ → OnlyLeaf less x n) (k : Nat) (hk : (treeList t).length ≤ k) :
    ∃ it A B, beginFrom less t x = some it ∧ treeList t = A ++ B ∧ (∀ a ∈ A, less a x = true) ∧ (∀ a ∈ B, less a x = false) ∧
      ∃ it', drain t k it = some (numbered A.length B, it') ∧ more t it' = false := by
  match et : t.root with
  | none =>
    have e1 : treeList t = [] := by rw [treeList, et]
    have e2 : t.size = 0 := by rw [Tree.size, et]
    refine ⟨⟨[], -1⟩, [], [], by rw [beginFrom, if_pos (by omega)], e1, by simp, by simp, ⟨[], -1⟩, ?_, by simp [more, e2]⟩
    cases k with
    | zero => rfl
    | succ k => rw [drain, if_neg (by simp [more, e2])]; rfl
  | some ⟨h, n⟩ =>
    obtain ⟨hwn, hh, el, es⟩ := height_lt hw hl et
    rw [el] at hs
    obtain ⟨it, A, B, ei, hg, eAB, hA, hB, h1, h2⟩ := seek_spec W hw.1 hh x n [] (-1) hwn .nil hs (hx h n et)
    have hpos := height hw.1 (by omega) hwn
    have h2h : 2 ≤ 2 ^ (h + 1) := by rw [Nat.pow_succ]; have := Nat.one_le_two_pow (n := h); omega
    rw [show upper ([] : List (Entry α)) = [] from rfl, List.append_nil] at h1
    have hlen : (toList n).length = A.length + B.length := by rw [eAB]; simp
    obtain ⟨it', e, -, -, h5⟩ := drain_spec hw.1 hh k it hg (by rw [h1, es, hlen]; omega) (by rw [h1]; rw [el] at hk; omega)
    refine ⟨it, A, B, ?_, by rw [el]; exact eAB, hA, hB, it', ?_, by simp [more]; omega⟩
    · rw [beginFrom, if_neg (by omega), et]
      exact ei
    · rw [e, h1, h2, show (-1 : Int) + A.length + 1 = A.length by omega]

end

/-- Insertions into a tree of order 2, and the items of the loop from a key. -/
def fromKey (xs : List Nat) (x : Nat) : Option (List (Option Nat × Int)) :=
  match addList (fun a b : Nat => decide (a < b)) (empty Nat 2) xs with
  | none => none
  | some t =>
    match beginFrom (fun a b : Nat => decide (a < b)) t x with
    | none => none
    | some it => (drain t 100 it).map fun r => r.1

/-- C97 fails for a key in an inner node: the way down ends in the null array of a leaf (btree.h:423-433). -/
theorem c97_inner_violated : fromKey [1, 2, 3, 4] 2 = none := by rfl

example : fromKey [10, 20, 30, 40, 50, 60, 70, 80] 45 = some [(some 50, 4), (some 60, 5), (some 70, 6), (some 80, 7)] := by rfl

example : fromKey [10, 20, 30, 40, 50, 60, 70, 80] 70 = some [(some 70, 6), (some 80, 7)] := by rfl

example : (addList (fun a b : Nat => decide (a < b)) (empty Nat 2) [5, 1, 9, 3, 7, 2, 8, 4, 6, 0]).bind (fun t => (drain t 100 (reset t)).map fun r => r.1) =
    some [(some 0, 0), (some 1, 1), (some 2, 2), (some 3, 3), (some 4, 4), (some 5, 5), (some 6, 6), (some 7, 7), (some 8, 8), (some 9, 9)] := by rfl

end LS.BTree

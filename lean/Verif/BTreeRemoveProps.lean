import Verif.BTreeProps
import Verif.BTreeRemove
/-
B-tree, removal: C23.
-/
namespace LS.BTree

open Spec

section

variable {α : Type} {less : α → α → Bool}

/-! ## Neighbours -/

theorem items_toList {order lo : Nat} : ∀ {h : Nat} {n : Node α h}, WF order lo n → (items n).Sublist (toList n)
  | 0, n, _ => List.Sublist.refl _
  | _ + 1, n, hw => items_sub _ _ (by rw [List.length_map]; exact hw.2.2.1)

theorem join_spec {order : Nat} (ho : 2 ≤ order) : ∀ {h : Nat} (c0 : Node α h) (k : α) (c1 : Node α h), WF order (order - 1) c0 → WF order (order - 1) c1 →
    (items c0).length = order - 1 → (items c1).length = order - 1 →
    WF order order (join c0 k c1) ∧ (items (join c0 k c1))[order - 1]? = some k ∧ toList (join c0 k c1) = toList c0 ++ k :: toList c1
  | 0, c0, k, c1, hw0, hw1, h0, h1 => by
    change (NodeF.items c0).length = _ at h0
    change (NodeF.items c1).length = _ at h1
    have hl : (NodeF.items c0 ++ k :: NodeF.items c1).length = order - 1 + (order - 1 + 1) := by rw [List.length_append, List.length_cons, h0, h1]
    refine ⟨⟨?_, ?_, ?_⟩, ?_, rfl⟩
    · show order ≤ (NodeF.items c0 ++ k :: NodeF.items c1).length
      omega
    · show (NodeF.items c0 ++ k :: NodeF.items c1).length ≤ _
      omega
    · show NodeF.size c0 + (NodeF.size c1 + 1) = (NodeF.items c0 ++ k :: NodeF.items c1).length
      rw [hw0.2.2, hw1.2.2]; omega
    · show (NodeF.items c0 ++ k :: NodeF.items c1)[order - 1]? = some k
      rw [← h0]; simp
  | h + 1, c0, k, c1, hw0, hw1, h0, h1 => by
    change (NodeF.items c0).length = _ at h0
    change (NodeF.items c1).length = _ at h1
    have hl : (NodeF.items c0 ++ k :: NodeF.items c1).length = order - 1 + (order - 1 + 1) := by rw [List.length_append, List.length_cons, h0, h1]
    obtain ⟨-, -, hs0, hz0, hc0⟩ := hw0
    obtain ⟨-, -, hs1, hz1, hc1⟩ := hw1
    have e : inter ((NodeF.subs c0 ++ NodeF.subs c1).map toList) (NodeF.items c0 ++ k :: NodeF.items c1) =
        inter ((NodeF.subs c0).map toList) (NodeF.items c0) ++ k :: inter ((NodeF.subs c1).map toList) (NodeF.items c1) := by
      rw [List.map_append, inter_key _ _ _ _ _ (by rw [List.length_map]; exact hs0)]
    refine ⟨⟨?_, ?_, ?_, ?_, ?_⟩, ?_, e⟩
    · show order ≤ (NodeF.items c0 ++ k :: NodeF.items c1).length
      omega
    · show (NodeF.items c0 ++ k :: NodeF.items c1).length ≤ _
      omega
    · show (NodeF.subs c0 ++ NodeF.subs c1).length = (NodeF.items c0 ++ k :: NodeF.items c1).length + 1
      rw [List.length_append, hs0, hs1]; omega
    · show NodeF.size c0 + (NodeF.size c1 + 1) = (inter ((NodeF.subs c0 ++ NodeF.subs c1).map toList) (NodeF.items c0 ++ k :: NodeF.items c1)).length
      rw [e, hz0, hz1, List.length_append, List.length_cons]; omega
    · intro s hs
      rcases List.mem_append.1 hs with hs | hs
      · exact hc0 s hs
      · exact hc1 s hs
    · show (NodeF.items c0 ++ k :: NodeF.items c1)[order - 1]? = some k
      rw [← h0]; simp

theorem snoc_of_pos {β : Type} {l : List β} (h : 0 < l.length) : ∃ a b, l = a ++ [b] := by
  refine ⟨l.dropLast, l.getLast (by intro e; rw [e] at h; cases h), (List.dropLast_concat_getLast _).symm⟩

theorem rotR_spec {order : Nat} (ho : 2 ≤ order) : ∀ {h : Nat} {c0 : Node α h} {k : α} {c1 c0' : Node α h} {m : α} {c1' : Node α h}, WF order (order - 1) c0 → WF order (order - 1) c1 →
    order ≤ (items c0).length → (items c1).length < order → rotR c0 k c1 = some (c0', m, c1') →
    WF order (order - 1) c0' ∧ WF order order c1' ∧ (items c1')[0]? = some k ∧ toList c0' ++ m :: toList c1' = toList c0 ++ k :: toList c1
  | 0, _, _, _, _, _, _, _, _, _, _, e => by cases e
  | h + 1, c0, k, c1, c0', m, c1', hw0, hw1, h0, h1, e => by
    change _ ≤ (NodeF.items c0).length at h0
    change (NodeF.items c1).length < _ at h1
    obtain ⟨I, i, eI⟩ := snoc_of_pos (l := NodeF.items c0) (by omega)
    obtain ⟨-, hhi0, hs0, hz0, hc0⟩ := hw0
    obtain ⟨hlo1, hhi1, hs1, hz1, hc1⟩ := hw1
    obtain ⟨S, p, eS⟩ := snoc_of_pos (l := NodeF.subs c0) (by omega)
    rw [eI] at h0 hhi0 hs0 hz0
    rw [eS] at hs0 hz0 hc0
    have hSI : S.length = I.length + 1 := by simpa using hs0
    simp only [rotR, eI, eS] at e
    rw [show (S ++ [p])[(I ++ [i]).length]? = some p by simp [← hSI]] at e
    simp only [List.getLast?_concat, List.dropLast_concat] at e
    have e2 : inter ((S ++ [p]).map toList) (I ++ [i]) = inter (S.map toList) I ++ i :: toList p := by
      rw [List.map_append, inter_key _ _ _ _ _ (by rw [List.length_map]; exact hSI)]; rfl
    have e3 : inter ((p :: NodeF.subs c1).map toList) (k :: NodeF.items c1) = toList p ++ k :: inter ((NodeF.subs c1).map toList) (NodeF.items c1) := rfl
    have hp : size p = (toList p).length := wf_size (hc0 p (by simp))
    simp at h0 hhi0
    injection e with e
    injection e with ea e
    injection e with eb ec
    subst ea; subst eb; subst ec
    refine ⟨⟨?_, ?_, hSI, ?_, ?_⟩, ⟨?_, ?_, ?_, ?_, ?_⟩, rfl, ?_⟩
    · show order - 1 ≤ I.length
      omega
    · show I.length ≤ _
      omega
    · show NodeF.size c0 - (size p + 1) = (inter (S.map toList) I).length
      rw [hz0, e2, hp, List.length_append, List.length_cons]; omega
    · intro s hs
      exact hc0 s (by simp [show s ∈ S from hs])
    · show order ≤ (NodeF.items c1).length + 1
      omega
    · show (NodeF.items c1).length + 1 ≤ _
      omega
    · show (NodeF.subs c1).length + 1 = (NodeF.items c1).length + 1 + 1
      omega
    · show NodeF.size c1 + (size p + 1) = (inter ((p :: NodeF.subs c1).map toList) (k :: NodeF.items c1)).length
      rw [hz1, e3, hp, List.length_append, List.length_cons]; omega
    · intro s hs
      rcases List.mem_cons.1 hs with rfl | hs
      · exact hc0 s (by simp)
      · exact hc1 s hs
    · show inter (S.map toList) I ++ i :: inter ((p :: NodeF.subs c1).map toList) (k :: NodeF.items c1) =
        inter ((NodeF.subs c0).map toList) (NodeF.items c0) ++ k :: inter ((NodeF.subs c1).map toList) (NodeF.items c1)
      rw [eI, eS, e2, e3]; simp

theorem rotL_spec {order : Nat} (ho : 2 ≤ order) : ∀ {h : Nat} {c0 : Node α h} {k : α} {c1 c0' : Node α h} {m : α} {c1' : Node α h}, WF order (order - 1) c0 → WF order (order - 1) c1 →
    (items c0).length < order → order ≤ (items c1).length → rotL c0 k c1 = some (c0', m, c1') →
    WF order order c0' ∧ WF order (order - 1) c1' ∧ k ∈ toList c0' ∧ toList c0' ++ m :: toList c1' = toList c0 ++ k :: toList c1
  | 0, _, _, _, _, _, _, _, _, _, _, e => by cases e
  | h + 1, c0, k, c1, c0', m, c1', hw0, hw1, h0, h1, e => by
    change (NodeF.items c0).length < _ at h0
    change _ ≤ (NodeF.items c1).length at h1
    obtain ⟨hlo0, hhi0, hs0, hz0, hc0⟩ := hw0
    obtain ⟨-, hhi1, hs1, hz1, hc1⟩ := hw1
    match eI : NodeF.items c1, eS : NodeF.subs c1 with
    | [], _ => rw [eI] at h1; simp at h1; omega
    | _ :: _, [] => rw [eS] at hs1; cases hs1
    | i :: I, p :: S =>
      rw [eI] at h1 hhi1 hs1 hz1
      rw [eS] at hs1 hz1 hc1
      have hSI : S.length = I.length + 1 := by simpa using hs1
      simp only [rotL, eI, eS] at e
      have e2 : inter ((p :: S).map toList) (i :: I) = toList p ++ i :: inter (S.map toList) I := rfl
      have e3 : inter ((NodeF.subs c0 ++ [p]).map toList) (NodeF.items c0 ++ [k]) = inter ((NodeF.subs c0).map toList) (NodeF.items c0) ++ k :: toList p := by
        rw [List.map_append, inter_key _ _ _ _ _ (by rw [List.length_map]; exact hs0)]; rfl
      have hp : size p = (toList p).length := wf_size (hc1 p (by simp))
      simp at h1 hhi1
      injection e with e
      injection e with ea e
      injection e with eb ec
      subst ea; subst eb; subst ec
      refine ⟨⟨?_, ?_, ?_, ?_, ?_⟩, ⟨?_, ?_, hSI, ?_, ?_⟩, ?_, ?_⟩
      · show order ≤ (NodeF.items c0 ++ [k]).length
        simp; omega
      · show (NodeF.items c0 ++ [k]).length ≤ _
        simp; omega
      · show (NodeF.subs c0 ++ [p]).length = (NodeF.items c0 ++ [k]).length + 1
        simp; omega
      · show NodeF.size c0 + (size p + 1) = (inter ((NodeF.subs c0 ++ [p]).map toList) (NodeF.items c0 ++ [k])).length
        rw [hz0, e3, hp, List.length_append, List.length_cons]; omega
      · intro s hs
        rcases List.mem_append.1 hs with hs | hs
        · exact hc0 s hs
        · rw [List.mem_singleton] at hs; subst hs
          exact hc1 s (by simp)
      · show order - 1 ≤ I.length
        omega
      · show I.length ≤ _
        omega
      · show NodeF.size c1 - (size p + 1) = (inter (S.map toList) I).length
        rw [hz1, e2, hp, List.length_append, List.length_cons]; omega
      · intro s hs
        exact hc1 s (by simp [show s ∈ S from hs])
      · show k ∈ inter ((NodeF.subs c0 ++ [p]).map toList) (NodeF.items c0 ++ [k])
        rw [e3]; simp
      · show inter ((NodeF.subs c0 ++ [p]).map toList) (NodeF.items c0 ++ [k]) ++ i :: inter (S.map toList) I =
          inter ((NodeF.subs c0).map toList) (NodeF.items c0) ++ k :: inter ((NodeF.subs c1).map toList) (NodeF.items c1)
        rw [eI, eS, e2, e3]; simp

/-! ## The step to a child -/

/-- The actions which do what they should: not the rotation to the right away from the first key, which writes to a wrong place, and
not the removal of a key of an inner node. -/
def Act.good : Act → Prop
  | .right i => i = 0
  | .inner => False
  | _ => True

theorem cut2 {β : Type} {S : List β} {n : Nat} (h : n + 1 < S.length) : ∃ S1 a b S2, S = S1 ++ a :: b :: S2 ∧ S1.length = n := by
  obtain ⟨S1, a, S2, e, hl, -⟩ := cut (S := S) (n := n) (by omega)
  match S2 with
  | [] => rw [e] at h; simp at h; omega
  | b :: S2 => exact ⟨S1, a, b, S2, e, hl⟩

/-- The node `n'`, with `q` between `J1` and `J2`, is `n` with the neighbours of the child `i` adjusted. -/
structure Down (less : α → α → Bool) (order : Nat) {h : Nat} (n : NodeF α (Node α h)) (i : Nat) (act : Act) (n' : NodeF α (Node α h)) (j : Nat) (q : Node α h)
    (J1 J2 : List α) (T1 T2 : List (Node α h)) : Prop where
  eI : n'.items = J1 ++ J2
  eS : n'.subs = T1 ++ q :: T2
  ej : j = J1.length
  l1 : T1.length = J1.length
  l2 : T2.length = J2.length
  size : n'.size = n.size
  same : inter (n'.subs.map toList) n'.items = inter (n.subs.map toList) n.items
  lo : n.items.length ≤ n'.items.length + 1
  hi : n'.items.length ≤ n.items.length
  full : WF order order q
  w1 : ∀ s ∈ T1, WF order (order - 1) s
  w2 : ∀ s ∈ T2, WF order (order - 1) s
  found : ∀ y, act ≠ .none → 0 < i → n.items[i - 1]? = some y → (items q)[(match act with | .right _ => 0 | _ => order - 1)]? = some y
  place : ∀ x, (∀ a ∈ n.items.take i, less a x = true) → (∀ a ∈ n.items.drop i, less x a = true) → (∀ a ∈ J1, less a x = true) ∧ ∀ a ∈ J2, less x a = true

theorem adjust_spec (W : Weak less) {order : Nat} (ho : 2 ≤ order) {h : Nat} {n : NodeF α (Node α h)} (hc : ∀ s ∈ n.subs, WF order (order - 1) s)
    (hs : Sorted less (inter (n.subs.map toList) n.items)) {i : Nat} {A B : List α} {k : α} {S1 S2 : List (Node α h)} {c0 c1 : Node α h}
    (eI : n.items = A ++ k :: B) (eS : n.subs = S1 ++ c0 :: c1 :: S2) (h1 : S1.length = A.length) (h2 : S2.length = B.length)
    (hi : (i = 0 ∧ A = [] ∧ (items c0).length < order) ∨ (i = A.length + 1 ∧ (items c1).length < order))
    {act : Act} {n' : NodeF α (Node α h)} {j : Nat} {q : Node α h} (e : adjust order n A.length c0 c1 = some (act, n', j, q)) (hg : act.good) :
    ∃ J1 J2 T1 T2, Down less order n i act n' j q J1 J2 T1 T2 := by
  have hw0 := hc c0 (by rw [eS]; simp)
  have hw1 := hc c1 (by rw [eS]; simp)
  have hl0 := (wf_items hw0).1
  have hl1 := (wf_items hw1).1
  have hm1 : (S1.map toList).length = A.length := by rw [List.length_map]; exact h1
  have hm2 : (S2.map toList).length = B.length := by rw [List.length_map]; exact h2
  have hold : inter (n.subs.map toList) n.items = pre (S1.map toList) A ++ ((toList c0 ++ k :: toList c1) ++ post B (S2.map toList)) := by
    rw [eI, eS, List.map_append, inter_pre _ _ _ _ hm1, List.map_cons, List.map_cons, inter, inter_post _ _ _ hm2]
    simp
  have hs' := hs
  rw [hold] at hs'
  have hmid := sorted_mid hs'
  unfold adjust at e
  rw [eI, List.getElem?_append_right (by omega)] at e
  simp only [Nat.sub_self, List.getElem?_cons_zero] at e
  by_cases hm : (items c0).length = order - 1 ∧ (items c1).length = order - 1
  · rw [if_pos hm] at e
    obtain ⟨jw, jk, jt⟩ := join_spec ho c0 k c1 hw0 hw1 hm.1 hm.2
    have e1 : (A ++ k :: B).eraseIdx A.length = A ++ B := by
      rw [List.eraseIdx_append_of_length_le (by omega), Nat.sub_self]; rfl
    have e2 : (n.subs.eraseIdx A.length).set A.length (join c0 k c1) = S1 ++ join c0 k c1 :: S2 := by
      rw [eS, ← h1, List.eraseIdx_append_of_length_le (by omega), Nat.sub_self]
      simp
    rw [e1, e2] at e
    injection e with e
    injection e with ea e
    injection e with eb e
    injection e with ec ed
    subst ea; subst eb; subst ec; subst ed
    refine ⟨A, B, S1, S2, ⟨rfl, rfl, rfl, h1, h2, rfl, ?_, ?_, ?_, jw, ?_, ?_, ?_, ?_⟩⟩
    · rw [hold]
      show inter ((S1 ++ join c0 k c1 :: S2).map toList) (A ++ B) = _
      rw [List.map_append, List.map_cons, inter_split _ _ _ _ _ hm1 hm2, jt]
    · rw [eI]; simp; omega
    · rw [eI]; simp
    · intro s hs; exact hc s (by rw [eS]; simp [hs])
    · intro s hs; exact hc s (by rw [eS]; simp [hs])
    · intro y _ hi0 hy
      rcases hi with ⟨hi, -⟩ | ⟨hi, -⟩
      · omega
      · rw [eI, hi, Nat.add_sub_cancel, List.getElem?_append_right (by omega)] at hy
        simp only [Nat.sub_self, List.getElem?_cons_zero] at hy
        rw [← hy]; exact jk
    · intro x hx1 hx2
      rw [eI] at hx1 hx2
      rcases hi with ⟨hi, hA, -⟩ | ⟨hi, -⟩
      · subst hA; subst hi
        exact ⟨by simp, fun a ha => hx2 a (by simp [ha])⟩
      · rw [hi] at hx1 hx2
        rw [show (A ++ k :: B).take (A.length + 1) = A ++ [k] by rw [show A ++ k :: B = (A ++ [k]) ++ B by simp, List.take_left' (by simp)]] at hx1
        rw [drop_mid rfl] at hx2
        exact ⟨fun a ha => hx1 a (by simp [ha]), hx2⟩
  · rw [if_neg hm] at e
    by_cases hr : order ≤ (items c0).length
    · rw [if_pos hr] at e
      split at e
      · cases e
      · rename_i c0' m c1' er
        have hl1' : (items c1).length < order := by
          rcases hi with ⟨-, -, hi⟩ | ⟨-, hi⟩
          · omega
          · exact hi
        have hi' : i = A.length + 1 := by
          rcases hi with ⟨-, -, hi⟩ | ⟨hi, -⟩
          · omega
          · exact hi
        obtain ⟨w0, w1, hk, ht⟩ := rotR_spec ho hw0 hw1 hr hl1' er
        injection e with e
        injection e with ea e
        injection e with eb e
        injection e with ec ed
        subst ea; subst ec; subst ed
        have hA : A = [] := List.length_eq_zero_iff.1 hg
        subst hA
        have hS1 : S1 = [] := List.length_eq_zero_iff.1 h1
        subst hS1
        rw [eS] at eb
        simp only [List.nil_append, List.set_cons_zero, List.length_nil, Nat.zero_add, List.set_cons_succ] at eb
        subst eb
        have hkm : less k m = false := by
          rw [← ht] at hmid
          unfold Sorted at hmid
          rw [List.pairwise_append, List.pairwise_cons] at hmid
          refine hmid.2.1.1 k ((items_toList w1).subset ?_)
          exact List.mem_of_getElem? hk
        refine ⟨[m], B, [c0'], S2, ⟨rfl, rfl, rfl, rfl, h2, rfl, ?_, ?_, ?_, w1, ?_, ?_, ?_, ?_⟩⟩
        · rw [hold, ← ht]
          show inter ((c0' :: c1' :: S2).map toList) (m :: B) = _
          rw [List.map_cons, List.map_cons, inter, inter_post _ _ _ hm2]
          simp [pre]
        · rw [eI]; simp
        · rw [eI]; simp
        · intro s hs; rw [List.mem_singleton] at hs; subst hs; exact w0
        · intro s hs; exact hc s (by rw [eS]; simp [hs])
        · intro y _ hi0 hy
          rw [eI, hi'] at hy
          simp at hy
          rw [← hy]; exact hk
        · intro x hx1 hx2
          rw [eI, hi'] at hx1 hx2
          refine ⟨?_, fun a ha => hx2 a (by simpa using ha)⟩
          intro a ha
          rw [List.mem_singleton] at ha; subst ha
          exact W.le_lt hkm (hx1 k (by simp))
    · rw [if_neg hr] at e
      split at e
      · cases e
      · rename_i c0' m c1' er
        obtain ⟨hi', hA⟩ : i = 0 ∧ A = [] := by
          rcases hi with ⟨hi, hA, -⟩ | ⟨-, hi⟩
          · exact ⟨hi, hA⟩
          · omega
        obtain ⟨w0, w1, hk, ht⟩ := rotL_spec ho hw0 hw1 (by omega) (by omega) er
        injection e with e
        injection e with ea e
        injection e with eb e
        injection e with ec ed
        subst ea; subst ec; subst ed
        subst hA
        have hS1 : S1 = [] := List.length_eq_zero_iff.1 h1
        subst hS1
        rw [eS] at eb
        simp only [List.nil_append, List.set_cons_zero, List.length_nil, Nat.zero_add, List.set_cons_succ] at eb
        subst eb
        have hkm : less m k = false := by
          rw [← ht] at hmid
          unfold Sorted at hmid
          rw [List.pairwise_append] at hmid
          exact hmid.2.2 k hk m (by simp)
        refine ⟨[], m :: B, [], c1' :: S2, ⟨rfl, rfl, rfl, rfl, by simp [h2], rfl, ?_, ?_, ?_, w0, ?_, ?_, ?_, ?_⟩⟩
        · rw [hold, ← ht]
          show inter ((c0' :: c1' :: S2).map toList) (m :: B) = _
          rw [List.map_cons, List.map_cons, inter, inter_post _ _ _ hm2]
          simp [pre]
        · rw [eI]; simp
        · rw [eI]; simp
        · intro s hs; cases hs
        · intro s hs
          rcases List.mem_cons.1 hs with rfl | hs
          · exact w1
          · exact hc s (by rw [eS]; simp [hs])
        · intro y _ hi0 _
          omega
        · intro x hx1 hx2
          rw [eI, hi'] at hx1 hx2
          refine ⟨by simp, ?_⟩
          intro a ha
          rcases List.mem_cons.1 ha with rfl | ha
          · exact W.lt_le (hx2 k (by simp)) hkm
          · exact hx2 a (by simp [ha])

theorem descendInto_spec (W : Weak less) {order : Nat} (ho : 2 ≤ order) {h : Nat} {n : NodeF α (Node α h)} (hsub : n.subs.length = n.items.length + 1)
    (hc : ∀ s ∈ n.subs, WF order (order - 1) s) (hs : Sorted less (inter (n.subs.map toList) n.items)) (hne : 1 ≤ n.items.length) {i : Nat} (hi : i ≤ n.items.length)
    {act : Act} {n' : NodeF α (Node α h)} {j : Nat} {q : Node α h} (e : descendInto order n i = some (act, n', j, q)) (hg : act.good) :
    ∃ J1 J2 T1 T2, Down less order n i act n' j q J1 J2 T1 T2 := by
  obtain ⟨T1, c, T2, eS, hT1, ec⟩ := cut (S := n.subs) (n := i) (by omega)
  unfold descendInto at e
  rw [ec] at e
  simp only at e
  by_cases hf : order ≤ (items c).length
  · rw [if_pos hf] at e
    injection e with e
    injection e with ea e
    injection e with eb e
    injection e with ec ed
    subst ea; subst eb; subst ec; subst ed
    refine ⟨n.items.take i, n.items.drop i, T1, T2, ⟨(List.take_append_drop _ _).symm, eS, ?_, ?_, ?_, rfl, rfl, by omega, Nat.le_refl _, ?_, ?_, ?_, ?_, ?_⟩⟩
    · rw [List.length_take]; omega
    · rw [List.length_take]; omega
    · rw [List.length_drop]
      have : (T1 ++ c :: T2).length = _ := (congrArg List.length eS).symm.trans hsub
      simp at this; omega
    · exact wf_lo (hc c (by rw [eS]; simp)) hf
    · intro s hs; exact hc s (by rw [eS]; simp [hs])
    · intro s hs; exact hc s (by rw [eS]; simp [hs])
    · intro y hn; exact absurd rfl hn
    · intro x hx1 hx2; exact ⟨hx1, hx2⟩
  · rw [if_neg hf] at e
    by_cases hi0 : i = 0
    · rw [if_pos hi0] at e
      subst hi0
      obtain ⟨S1, a, b, S2, eS', hS1⟩ := cut2 (S := n.subs) (n := 0) (by omega)
      obtain ⟨A, k, B, eI, hA, -⟩ := cut (S := n.items) (n := 0) (by omega)
      have hS1' : S1 = [] := List.length_eq_zero_iff.1 hS1
      have hA' : A = [] := List.length_eq_zero_iff.1 hA
      subst hS1' hA'
      have hca : c = a := by
        rw [eS'] at ec
        simpa using ec.symm
      subst hca
      rw [show n.subs[1]? = some b by rw [eS']; rfl] at e
      simp only at e
      have hl : S2.length = B.length := by
        rw [eS', eI] at hsub; simp at hsub; omega
      exact adjust_spec W ho hc hs eI eS' rfl hl (.inl ⟨rfl, rfl, by omega⟩) e hg
    · rw [if_neg hi0] at e
      obtain ⟨S1, a, b, S2, eS', hS1⟩ := cut2 (S := n.subs) (n := i - 1) (by omega)
      obtain ⟨A, k, B, eI, hA, -⟩ := cut (S := n.items) (n := i - 1) (by omega)
      have hcb : c = b := by
        rw [eS', show i = S1.length + 1 by omega] at ec
        simpa using ec.symm
      subst hcb
      rw [show n.subs[i - 1]? = some a by rw [eS', ← hS1]; simp] at e
      simp only at e
      have hl : S2.length = B.length := by
        rw [eS', eI] at hsub; simp at hsub; omega
      rw [← hA] at e
      exact adjust_spec W ho hc hs eI eS' (by omega) hl (.inr ⟨by omega, by omega⟩) e hg

/-! ## Removal -/

namespace Spec

/-- Exactly one item equal to `x` is taken out, or there is none. -/
def Rem (less : α → α → Bool) (x : α) (old : List α) (b : Bool) (new : List α) : Prop :=
  (b = false ∧ new = old ∧ ∀ y ∈ old, ¬ Same less x y) ∨
  (b = true ∧ ∃ l y r, old = l ++ y :: r ∧ new = l ++ r ∧ Same less x y)

end Spec

theorem rem_length {x : α} {old new : List α} {b : Bool} (h : Rem less x old b new) : (new.length : Int) = if b then (old.length : Int) - 1 else old.length := by
  rcases h with ⟨rfl, rfl, -⟩ | ⟨rfl, l, y, r, rfl, rfl, -⟩
  · rfl
  · simp; omega

theorem eraseIdx_mid {β : Type} (l : List β) (y : β) (r : List β) : (l ++ y :: r).eraseIdx l.length = l ++ r := by
  rw [List.eraseIdx_append_of_length_le (by omega), Nat.sub_self]; rfl

theorem locate_spec (W : Weak less) {x : α} {st : Seek} {l : List α} (hs : Sorted less l) (hst : ∀ i, st = .descending i → ∃ y, l[i]? = some y ∧ Same less x y)
    {r : Bool × Int} (e : locate less x st l = some r) : Found less x l r ∧ (∀ i, st = .descending i → r.1 = true) := by
  match st with
  | .searching =>
    obtain ⟨r', e', hf⟩ := search_spec W x l hs
    have : r' = r := Option.some.inj (e'.symm.trans e)
    subst this
    exact ⟨hf, by intro i hi; cases hi⟩
  | .descending i =>
    obtain ⟨y, ey, hy⟩ := hst i rfl
    unfold locate at e
    simp only at e
    split at e
    · injection e with e
      subst e
      refine ⟨?_, fun _ _ => rfl⟩
      rename_i hi
      obtain ⟨l1, z, l2, e, hl, ez⟩ := cut hi
      rw [ez] at ey
      injection ey with ey
      subst ey
      exact ⟨l1, z, l2, e, by rw [hl], hy⟩
    · cases e

theorem remove_spec (W : Weak less) {order : Nat} (ho : 2 ≤ order) (x : α) : ∀ {h : Nat} (top : Bool) (sp : Nat) (st : Seek) (n : Node α h),
    WF order (if top then 1 else order) n → Sorted less (toList n) → (∀ i, st = .descending i → ∃ y, (items n)[i]? = some y ∧ Same less x y) →
    ∀ {b : Bool} {log : List Act} {n' : Node α h}, remove less order x top sp st n = some (b, log, n') → (∀ a ∈ log, a.good) →
    Rem less x (toList n) b (toList n') ∧ ((toList n' = [] ∧ top = true) ∨ WF order (if top then 0 else order - 1) n')
  | 0, top, sp, st, n, hw, hs, hst, b, log, n', e, hlog => by
    unfold remove at e
    split at e
    · cases e
    · rename_i found pos er
      obtain ⟨hf, -⟩ := locate_spec W (l := NodeF.items n) hs hst er
      split at e
      · cases e
      · split at e
        · rename_i hfound
          subst hfound
          obtain ⟨l1, y, l2, ei, hp, hy⟩ := hf
          have ep : pos.toNat = l1.length := by omega
          rw [ei, ep, eraseIdx_mid] at e
          injection e with e
          injection e with ea e
          injection e with eb ec
          subst ea; subst ec
          refine ⟨.inr ⟨rfl, l1, y, l2, ei, rfl, hy⟩, ?_⟩
          obtain ⟨h1, h2, h3⟩ := hw
          rw [ei] at h1 h2 h3
          simp at h1 h2 h3
          by_cases hz : (l1 ++ l2).length = 0
          · refine .inl ⟨List.length_eq_zero_iff.1 hz, ?_⟩
            cases top with
            | true => rfl
            | false => simp at hz h1; rw [hz.1, hz.2] at h1; simp at h1; omega
          · refine .inr ⟨?_, ?_, ?_⟩
            · show _ ≤ (l1 ++ l2).length
              cases top <;> simp at h1 ⊢ <;> omega
            · show (l1 ++ l2).length ≤ _
              simp; omega
            · show (if sp = 0 ∧ (l1 ++ l2).length = 0 then NodeF.size n else NodeF.size n - 1) = (l1 ++ l2).length
              rw [if_neg (by intro h; exact hz h.2), h3]
              simp; omega
        · rename_i hfound
          have hfound : found = false := by simpa using hfound
          subst hfound
          obtain ⟨l1, l2, ei, hp, h1, h2⟩ := hf
          injection e with e
          injection e with ea e
          injection e with eb ec
          subst ea; subst ec
          refine ⟨.inl ⟨rfl, rfl, ?_⟩, .inr (wf_lo hw ?_)⟩
          · intro y hy hsame
            change y ∈ NodeF.items n at hy
            rw [ei] at hy
            rcases List.mem_append.1 hy with hy | hy
            · exact absurd (h1 y hy) (by simp [hsame.2])
            · exact absurd (h2 y hy) (by simp [hsame.1])
          · have := (wf_items hw).1
            cases top <;> simp at this ⊢; omega
  | h + 1, top, sp, st, n, hw, hs, hst, b, log, n', e, hlog => by
    change Sorted less (inter ((NodeF.subs n).map toList) (NodeF.items n)) at hs
    obtain ⟨hlo, hhi, hsub, hz, hc⟩ := hw
    have hsi : Sorted less (NodeF.items n) := hs.sublist (items_sub _ _ (by rw [List.length_map]; exact hsub))
    have hne : 1 ≤ (NodeF.items n).length := by cases top <;> simp at hlo <;> omega
    unfold remove at e
    split at e
    · cases e
    · rename_i found pos er
      obtain ⟨hf, -⟩ := locate_spec W hsi hst er
      have hpos : (pos + 1).toNat ≤ (NodeF.items n).length := by
        cases found with
        | true =>
          obtain ⟨l1, y, l2, ei, hp, hy⟩ := hf
          rw [ei]; simp; omega
        | false =>
          obtain ⟨l1, l2, ei, hp, -⟩ := hf
          rw [ei]; simp; omega
      split at e
      · cases e
      · rename_i act n1 j q ed
        split at e
        · cases e
        · split at e
          · cases e
          · rename_i hn1
            split at e
            · split at e
              · cases e
              · rename_i log1 _ _
                injection e with e
                injection e with ea e
                injection e with eb ec
                subst eb
                exact absurd (hlog .inner (by simp)) (by simp [Act.good])
            · rename_i hact
              split at e
              · cases e
              · rename_i b1 log1 q1 eq1
                injection e with e
                injection e with ea e
                injection e with eb ec
                subst ea; subst eb; subst ec
                obtain ⟨J1, J2, T1, T2, D⟩ := descendInto_spec W ho hsub hc hs hne hpos ed (hlog act (by simp))
                have hm1 : (T1.map toList).length = J1.length := by rw [List.length_map]; exact D.l1
                have hm2 : (T2.map toList).length = J2.length := by rw [List.length_map]; exact D.l2
                have esplit : ∀ v : Node α h, inter ((T1 ++ v :: T2).map toList) (J1 ++ J2) = pre (T1.map toList) J1 ++ (toList v ++ post J2 (T2.map toList)) := by
                  intro v
                  rw [List.map_append, List.map_cons, inter_split _ _ _ _ _ hm1 hm2]
                have hold : inter ((NodeF.subs n).map toList) (NodeF.items n) = pre (T1.map toList) J1 ++ (toList q ++ post J2 (T2.map toList)) := by
                  rw [← D.same, D.eI, D.eS, esplit]
                have hs' := hs
                rw [hold] at hs'
                have hsq := sorted_mid hs'
                obtain ⟨hrem, hwf⟩ := remove_spec W ho x false _ _ q D.full hsq (by
                  intro i hi
                  unfold nextSeek at hi
                  split at hi
                  · rename_i hfound
                    subst hfound
                    obtain ⟨l1, y, l2, ei, hp, hy⟩ := hf
                    have hact' : act ≠ .none := by
                      intro h; exact hact ⟨rfl, h⟩
                    have := D.found y hact' (by omega) (by rw [ei, show (pos + 1).toNat - 1 = l1.length by omega]; simp)
                    refine ⟨y, ?_, hy⟩
                    rw [← this]
                    congr 1
                    cases act <;> simp at hi ⊢ <;> omega
                  · cases hi) eq1 (fun a ha => hlog a (by simp [ha]))
                have hwq : WF order (order - 1) q1 := by
                  rcases hwf with ⟨-, h⟩ | h
                  · cases h
                  · exact h
                have enew : n1.subs.set j q1 = T1 ++ q1 :: T2 := by
                  rw [D.eS, D.ej, ← D.l1]; simp
                have hlift : Rem less x (inter ((NodeF.subs n).map toList) (NodeF.items n)) b1 (inter ((n1.subs.set j q1).map toList) n1.items) := by
                  rw [hold, enew, D.eI, esplit]
                  rcases hrem with ⟨hb, hq, hno⟩ | ⟨hb, l, y, r, e1, e2, hy⟩
                  · refine .inl ⟨hb, by rw [hq], ?_⟩
                    have hfound : found = false := by
                      cases hfd : found with
                      | false => rfl
                      | true =>
                        subst hfd
                        exfalso
                        obtain ⟨l1, y, l2, ei, hp, hy⟩ := hf
                        have hact' : act ≠ .none := by
                          intro h; exact hact ⟨rfl, h⟩
                        have := D.found y hact' (by omega) (by rw [ei, show (pos + 1).toNat - 1 = l1.length by omega]; simp)
                        exact hno y ((items_toList D.full).subset (List.mem_of_getElem? this)) hy
                    subst hfound
                    obtain ⟨l1, l2, ei, hp, h1, h2⟩ := hf
                    have ep : (pos + 1).toNat = l1.length := by omega
                    obtain ⟨hp1, hp2⟩ := D.place x (by rw [ei, ep, List.take_left]; exact h1) (by rw [ei, ep, List.drop_left]; exact h2)
                    obtain ⟨ha, hb⟩ := around_lt W hs' hp1 hp2
                    intro y hy hsame
                    rcases List.mem_append.1 hy with hy | hy
                    · exact absurd (ha y hy) (by simp [hsame.2])
                    · rcases List.mem_append.1 hy with hy | hy
                      · exact hno y hy hsame
                      · exact absurd (hb y hy) (by simp [hsame.1])
                  · exact .inr ⟨hb, pre (T1.map toList) J1 ++ l, y, r ++ post J2 (T2.map toList), by rw [e1]; simp, by rw [e2]; simp, hy⟩
                refine ⟨hlift, .inr ⟨?_, ?_, ?_, ?_, ?_⟩⟩
                · show _ ≤ n1.items.length
                  have := D.lo
                  cases top <;> simp at hlo ⊢; omega
                · show n1.items.length ≤ _
                  have := D.hi
                  omega
                · show (n1.subs.set j q1).length = n1.items.length + 1
                  rw [enew, D.eI, List.length_append, List.length_cons, List.length_append, D.l1, D.l2]; omega
                · show (if b1 then n1.size - 1 else n1.size) = (inter ((n1.subs.set j q1).map toList) n1.items).length
                  rw [rem_length hlift, D.size, hz]
                · intro s hsm
                  change s ∈ n1.subs.set j q1 at hsm
                  rw [enew] at hsm
                  rcases List.mem_append.1 hsm with hsm | hsm
                  · exact D.w1 s hsm
                  · rcases List.mem_cons.1 hsm with rfl | hsm
                    · exact hwq
                    · exact D.w2 s hsm


/-! ## Trees where the run is known -/

namespace Spec

/-- Every node below has as few keys as possible. -/
def Least (order : Nat) : {h : Nat} → Node α h → Prop
  | 0, _ => True
  | _ + 1, n => ∀ s ∈ NodeF.subs n, (items s).length = order - 1 ∧ Least order s

/-- Every node below has a key to spare. -/
def Spare (order : Nat) : {h : Nat} → Node α h → Prop
  | 0, _ => True
  | _ + 1, n => ∀ s ∈ NodeF.subs n, order ≤ (items s).length ∧ Spare order s

/-- No key of an inner node equals `x`. -/
def OnlyLeaf (less : α → α → Bool) (x : α) : {h : Nat} → Node α h → Prop
  | 0, _ => True
  | _ + 1, n => (∀ y ∈ NodeF.items n, ¬ Same less x y) ∧ ∀ s ∈ NodeF.subs n, OnlyLeaf less x s

end Spec

theorem locate_some (W : Weak less) {x : α} {st : Seek} {l : List α} (hs : Sorted less l) (hst : ∀ i, st = .descending i → ∃ y, l[i]? = some y ∧ Same less x y) :
    ∃ found pos, locate less x st l = some (found, pos) := by
  match st with
  | .searching =>
    obtain ⟨r', e', hf⟩ := search_spec W x l hs
    exact ⟨r'.1, r'.2, e'⟩
  | .descending i =>
    obtain ⟨y, ey, hy⟩ := hst i rfl
    exact ⟨true, i, by rw [locate, if_pos (by obtain ⟨h, -⟩ := List.getElem?_eq_some_iff.1 ey; exact h)]⟩

theorem join_least {order : Nat} : ∀ {h : Nat} {c0 : Node α h} {k : α} {c1 : Node α h}, Least order c0 → Least order c1 → Least order (join c0 k c1)
  | 0, _, _, _, _, _ => trivial
  | h + 1, c0, k, c1, h0, h1 => by
    intro s hs
    rcases List.mem_append.1 (show s ∈ NodeF.subs c0 ++ NodeF.subs c1 from hs) with hs | hs
    · exact h0 s hs
    · exact h1 s hs

theorem found_pos {x : α} {l : List α} {found : Bool} {pos : Int} (hf : Found less x l (found, pos)) : (pos + 1).toNat ≤ l.length := by
  cases found with
  | true =>
    obtain ⟨l1, y, l2, ei, hp, hy⟩ := hf
    rw [ei]; simp; omega
  | false =>
    obtain ⟨l1, l2, ei, hp, -⟩ := hf
    rw [ei]; simp; omega

theorem adjust_least {order : Nat} {h : Nat} {n : NodeF α (Node α h)} {idx : Nat} {c0 c1 : Node α h} {k : α} (ek : n.items[idx]? = some k)
    (h0 : (items c0).length = order - 1) (h1 : (items c1).length = order - 1) :
    adjust order n idx c0 c1 = some (.merge, ⟨n.size, n.items.eraseIdx idx, (n.subs.eraseIdx idx).set idx (join c0 k c1)⟩, idx, join c0 k c1) := by
  unfold adjust
  rw [ek]
  simp only
  rw [if_pos ⟨h0, h1⟩]

theorem descendInto_least {order : Nat} (ho : 2 ≤ order) {h : Nat} {n : NodeF α (Node α h)} (hm : ∀ s ∈ n.subs, (items s).length = order - 1 ∧ Least order s)
    (hsub : n.subs.length = n.items.length + 1) (hne : 1 ≤ n.items.length) {i : Nat} (hi : i ≤ n.items.length) :
    ∃ n' j q, descendInto order n i = some (.merge, n', j, q) ∧ Least order q := by
  have hc : ∀ k (hk : k < n.subs.length), (items n.subs[k]).length = order - 1 ∧ Least order n.subs[k] := fun k hk => hm _ (List.getElem_mem hk)
  unfold descendInto
  rw [List.getElem?_eq_getElem (by omega)]
  simp only
  rw [if_neg (by have := (hc i (by omega)).1; omega)]
  by_cases hi0 : i = 0
  · subst hi0
    rw [if_pos rfl, List.getElem?_eq_getElem (by omega)]
    simp only
    rw [adjust_least (List.getElem?_eq_getElem (by omega)) (hc _ _).1 (hc _ _).1]
    exact ⟨_, _, _, rfl, join_least (hc _ _).2 (hc _ _).2⟩
  · rw [if_neg hi0, List.getElem?_eq_getElem (by omega)]
    simp only
    rw [adjust_least (List.getElem?_eq_getElem (by omega)) (hc _ _).1 (hc _ _).1]
    exact ⟨_, _, _, rfl, join_least (hc _ _).2 (hc _ _).2⟩

theorem next_found {order : Nat} {x : α} {found : Bool} {pos : Int} {act : Act} {l l' : List α} (hf : Found less x l (found, pos))
    (hact : ¬(found = true ∧ act = .none))
    (hD : ∀ y, act ≠ .none → 0 < (pos + 1).toNat → l[(pos + 1).toNat - 1]? = some y → l'[(match act with | .right _ => 0 | _ => order - 1)]? = some y) :
    ∀ i, nextSeek order found act = .descending i → ∃ y, l'[i]? = some y ∧ Same less x y := by
  intro i hi
  unfold nextSeek at hi
  split at hi
  · rename_i hfound
    subst hfound
    obtain ⟨l1, y, l2, ei, hp, hy⟩ := hf
    have hact' : act ≠ .none := by
      intro h; exact hact ⟨rfl, h⟩
    have := hD y hact' (by omega) (by rw [ei, show (pos + 1).toNat - 1 = l1.length by omega]; simp)
    refine ⟨y, ?_, hy⟩
    rw [← this]
    congr 1
    cases act <;> simp at hi ⊢ <;> omega
  · cases hi

theorem down_sorted {order : Nat} {h : Nat} {n : NodeF α (Node α h)} {i : Nat} {act : Act} {n' : NodeF α (Node α h)} {j : Nat} {q : Node α h}
    {J1 J2 : List α} {T1 T2 : List (Node α h)} (D : Down less order n i act n' j q J1 J2 T1 T2) (hs : Sorted less (inter (n.subs.map toList) n.items)) : Sorted less (toList q) := by
  rw [← D.same, D.eI, D.eS, List.map_append, List.map_cons,
    inter_split _ _ _ _ _ (by rw [List.length_map]; exact D.l1) (by rw [List.length_map]; exact D.l2)] at hs
  exact sorted_mid hs

theorem remove_least (W : Weak less) {order : Nat} (ho : 2 ≤ order) (x : α) : ∀ {h : Nat} (top : Bool) (sp : Nat) (st : Seek) (n : Node α h),
    WF order (if top then 1 else order) n → Sorted less (toList n) → (∀ i, st = .descending i → ∃ y, (items n)[i]? = some y ∧ Same less x y) → Least order n → sp + h < 50 →
    ∃ b log n', remove less order x top sp st n = some (b, log, n') ∧ ∀ a ∈ log, a = .merge
  | 0, top, sp, st, n, hw, hs, hst, hm, hsp => by
    obtain ⟨found, pos, er⟩ := locate_some W (l := NodeF.items n) hs hst
    unfold remove
    rw [er]
    simp only
    rw [if_neg (by omega)]
    split
    · exact ⟨_, _, _, rfl, by simp⟩
    · exact ⟨_, _, _, rfl, by simp⟩
  | h + 1, top, sp, st, n, hw, hs, hst, hm, hsp => by
    change Sorted less (inter ((NodeF.subs n).map toList) (NodeF.items n)) at hs
    obtain ⟨hlo, hhi, hsub, hz, hc⟩ := hw
    have hsi : Sorted less (NodeF.items n) := hs.sublist (items_sub _ _ (by rw [List.length_map]; exact hsub))
    have hne : 1 ≤ (NodeF.items n).length := by cases top <;> simp at hlo <;> omega
    obtain ⟨found, pos, er⟩ := locate_some W hsi hst
    obtain ⟨hf, -⟩ := locate_spec W hsi hst er
    obtain ⟨n1, j, q, ed, hmq⟩ := descendInto_least ho hm hsub hne (found_pos hf)
    obtain ⟨J1, J2, T1, T2, D⟩ := descendInto_spec W ho hsub hc hs hne (found_pos hf) ed trivial
    unfold remove
    rw [er]
    simp only
    rw [ed]
    simp only
    rw [if_neg (by omega), if_neg (by
      rintro ⟨h1, h2⟩
      subst h2
      simp at hlo
      have := D.lo
      omega), if_neg (by simp)]
    obtain ⟨b, log, q', eq, hl⟩ := remove_least W ho x false (if n1.items.length = 0 then sp else sp + 1) (nextSeek order found .merge) q D.full
      (down_sorted D hs) (next_found hf (by simp) D.found) hmq (by split <;> omega)
    rw [eq]
    refine ⟨_, _, _, rfl, ?_⟩
    intro a ha
    rcases List.mem_cons.1 ha with rfl | ha
    · rfl
    · exact hl a ha

theorem remove_spare (W : Weak less) {order : Nat} (ho : 2 ≤ order) (x : α) : ∀ {h : Nat} (top : Bool) (sp : Nat) (n : Node α h),
    WF order (if top then 1 else order) n → Sorted less (toList n) → Spare order n → OnlyLeaf less x n → sp + h < 50 →
    ∃ b log n', remove less order x top sp .searching n = some (b, log, n') ∧ ∀ a ∈ log, a = .none
  | 0, top, sp, n, hw, hs, hm, hx, hsp => by
    obtain ⟨found, pos, er⟩ := locate_some W (st := .searching) (x := x) (l := NodeF.items n) hs (by intro i hi; cases hi)
    unfold remove
    rw [er]
    simp only
    rw [if_neg (by omega)]
    split
    · exact ⟨_, _, _, rfl, by simp⟩
    · exact ⟨_, _, _, rfl, by simp⟩
  | h + 1, top, sp, n, hw, hs, hm, hx, hsp => by
    change Sorted less (inter ((NodeF.subs n).map toList) (NodeF.items n)) at hs
    obtain ⟨hlo, hhi, hsub, hz, hc⟩ := hw
    have hsi : Sorted less (NodeF.items n) := hs.sublist (items_sub _ _ (by rw [List.length_map]; exact hsub))
    have hne : 1 ≤ (NodeF.items n).length := by cases top <;> simp at hlo <;> omega
    have hst : ∀ i, Seek.searching = .descending i → ∃ y, (NodeF.items n)[i]? = some y ∧ Same less x y := by intro i hi; cases hi
    obtain ⟨found, pos, er⟩ := locate_some W hsi hst
    obtain ⟨hf, -⟩ := locate_spec W hsi hst er
    have hpos := found_pos hf
    have hfound : found = false := by
      cases found with
      | false => rfl
      | true =>
        obtain ⟨l1, y, l2, ei, hp, hy⟩ := hf
        exact absurd hy (hx.1 y (by rw [ei]; simp))
    subst hfound
    have hq : (pos + 1).toNat < (NodeF.subs n).length := by omega
    have hmem := List.getElem_mem hq
    have ed : descendInto order n (pos + 1).toNat = some (.none, n, (pos + 1).toNat, (NodeF.subs n)[(pos + 1).toNat]) := by
      unfold descendInto
      rw [List.getElem?_eq_getElem hq]
      simp only
      rw [if_pos (hm _ hmem).1]
      rfl
    obtain ⟨J1, J2, T1, T2, D⟩ := descendInto_spec W ho hsub hc hs hne hpos ed trivial
    unfold remove
    rw [er]
    simp only
    rw [ed]
    simp only
    rw [if_neg (by omega), if_neg (by
      rintro ⟨h1, h2⟩
      omega), if_neg (by simp)]
    obtain ⟨b, log, q', eq, hl⟩ := remove_spare W ho x false (if (NodeF.items n).length = 0 then sp else sp + 1) (NodeF.subs n)[(pos + 1).toNat] D.full
      (down_sorted D hs) (hm _ hmem).2 (hx.2 _ hmem) (by split <;> omega)
    rw [show nextSeek order false .none = .searching from rfl, eq]
    refine ⟨_, _, _, rfl, ?_⟩
    intro a ha
    rcases List.mem_cons.1 ha with rfl | ha
    · rfl
    · exact hl a ha

/-! ## C23 -/

theorem collapse_succ {h : Nat} (n : Node α (h + 1)) :
    collapse n = if (NodeF.items n).length = 0 then (match NodeF.subs n with | [] => none | q :: _ => some ⟨h, q⟩) else some ⟨h + 1, n⟩ := rfl

theorem collapse_toList : ∀ {h : Nat} {n : Node α h} {r : (h : Nat) × Node α h}, collapse n = some r → toList r.2 = toList n
  | 0, n, r, ec => by
    injection ec with ec
    subst ec
    rfl
  | h + 1, n, r, ec => by
    rw [collapse_succ] at ec
    by_cases h0 : (NodeF.items n).length = 0
    · rw [if_pos h0] at ec
      have hI : NodeF.items n = [] := List.length_eq_zero_iff.1 h0
      show _ = inter ((NodeF.subs n).map toList) (NodeF.items n)
      match eS : NodeF.subs n with
      | [] => rw [eS] at ec; cases ec
      | q :: S =>
        rw [eS] at ec
        injection ec with ec
        subst ec
        rw [hI]
        rfl
    · rw [if_neg h0] at ec
      injection ec with ec
      subst ec
      rfl

theorem collapse_spec {order : Nat} (ho : 2 ≤ order) : ∀ {h : Nat} {n : Node α h}, WF order 0 n →
    ∃ r, collapse n = some r ∧ toList r.2 = toList n ∧ (toList n ≠ [] → WF order 1 r.2)
  | 0, n, hw => ⟨⟨0, n⟩, rfl, rfl, fun hne => wf_lo hw (List.length_pos_iff.2 hne)⟩
  | h + 1, n, hw => by
    obtain ⟨hlo, hhi, hsub, hz, hc⟩ := hw
    rw [collapse_succ]
    by_cases h0 : (NodeF.items n).length = 0
    · rw [if_pos h0]
      have hI : NodeF.items n = [] := List.length_eq_zero_iff.1 h0
      match eS : NodeF.subs n with
      | [] => rw [eS] at hsub; cases hsub
      | q :: S =>
        refine ⟨⟨h, q⟩, rfl, ?_, fun _ => ?_⟩
        · show toList q = inter ((NodeF.subs n).map toList) (NodeF.items n)
          rw [eS, hI]; rfl
        · have := hc q (by rw [eS]; simp)
          exact wf_lo this (by have := (wf_items this).1; show 1 ≤ (items q).length; omega)
    · rw [if_neg h0]
      exact ⟨⟨h + 1, n⟩, rfl, rfl, fun _ => ⟨(by show 1 ≤ (NodeF.items n).length; omega), hhi, hsub, hz, hc⟩⟩

theorem removeKey_some {t : Tree α} {h : Nat} {n : Node α h} {x : α} {b : Bool} {log : List Act} {n' : Node α h} {r : (h : Nat) × Node α h} (et : t.root = some ⟨h, n⟩)
    (hne : (items n).length ≠ 0) (e : remove less t.order x true 0 .searching n = some (b, log, n')) (ec : collapse n' = some r) :
    removeKey less t x = some (b, log, ⟨t.order, some r⟩) := by
  unfold removeKey
  rw [et]
  simp only
  rw [if_neg hne, e]
  simp only
  rw [ec]

/-- C23, every run in which `_DescendInto` did not rotate to the right away from the first key and the key was not removed from an
inner node: exactly one item equal to the key is gone, or there was none and nothing changed, and the tree is well formed as long
as it is not empty.  Missing: the other runs, which go wrong (`c23_rotate_violated`, `c23_inner_violated`, `c23_right_violated`), and the
size of a tree whose last item was removed (`c23_last_violated`). -/
theorem c23_remove_partial (W : Weak less) (t : Tree α) (hw : TreeWF t) (hs : Sorted less (treeList t)) (x : α) {b : Bool} {log : List Act} {t' : Tree α}
    (e : removeKey less t x = some (b, log, t')) (hlog : ∀ a ∈ log, a.good) :
    Rem less x (treeList t) b (treeList t') ∧ t'.order = t.order ∧ (treeList t' ≠ [] → TreeWF t') := by
  obtain ⟨order, root⟩ := t
  obtain ⟨ho, hw⟩ := hw
  match root with
  | none =>
    injection e with e
    injection e with ea e
    injection e with eb ec
    subst ea; subst ec
    exact ⟨.inl ⟨rfl, rfl, by intro y hy; cases hy⟩, rfl, fun _ => ⟨ho, trivial⟩⟩
  | some ⟨h, n⟩ =>
    have hne : (items n).length ≠ 0 := by have := (wf_items hw).1; omega
    unfold removeKey at e
    simp only at e
    rw [if_neg hne] at e
    split at e
    · cases e
    · rename_i b1 log1 n1 er
      split at e
      · cases e
      · rename_i r ec
        injection e with e
        injection e with ea e
        injection e with eb et
        subst ea; subst eb; subst et
        obtain ⟨hrem, hwf⟩ := remove_spec W ho x true 0 .searching n hw hs (by intro i hi; cases hi) er hlog
        have hcol : toList r.2 = toList n1 ∧ (toList n1 ≠ [] → WF order 1 r.2) := by
          rcases hwf with ⟨hnil, -⟩ | hwf
          · exact ⟨collapse_toList ec, fun h => absurd hnil h⟩
          · obtain ⟨r', ec', h1, h2⟩ := collapse_spec ho hwf
            have : r' = r := Option.some.inj (ec'.symm.trans ec)
            subst this
            exact ⟨h1, h2⟩
        refine ⟨?_, rfl, ?_⟩
        · show Rem less x (toList n) b1 (toList r.2)
          rw [hcol.1]
          exact hrem
        · intro hne'
          exact ⟨ho, hcol.2 (by rw [← hcol.1]; exact hne')⟩

/-- C23 in trees with more than one item whose nodes, other than the root, all have the least number of keys: every key can be
removed. -/
theorem c23_least_partial (W : Weak less) (t : Tree α) (hw : TreeWF t) (hs : Sorted less (treeList t)) (hl : (treeList t).length + 1 < 2 ^ 50)
    (hm : ∀ h n, t.root = some ⟨h, n⟩ → Least t.order n) (x : α) (h2 : 2 ≤ (treeList t).length) :
    ∃ b log t', removeKey less t x = some (b, log, t') ∧ TreeWF t' ∧ Rem less x (treeList t) b (treeList t') := by
  obtain ⟨order, root⟩ := t
  match root with
  | none => simp [treeList] at h2
  | some ⟨h, n⟩ =>
    obtain ⟨ho, hwn⟩ := hw
    have hh : h < 50 := by
      have := height ho (by omega) hwn
      have h3 : 2 ^ (h + 1) < 2 ^ 51 := by
        have : (treeList (⟨order, some ⟨h, n⟩⟩ : Tree α)).length = (toList n).length := rfl
        omega
      have := (Nat.pow_lt_pow_iff_right (by omega)).1 h3
      omega
    obtain ⟨b, log, n', er, hlog⟩ := remove_least W ho x true 0 .searching n hwn hs (by intro i hi; cases hi) (hm h n rfl) (by omega)
    have hgood : ∀ a ∈ log, a.good := by intro a ha; rw [hlog a ha]; trivial
    obtain ⟨hrem, hwf⟩ := remove_spec W ho x true 0 .searching n hwn hs (by intro i hi; cases hi) er hgood
    have hlen := rem_length hrem
    have hne : toList n' ≠ [] := by
      intro h0
      rw [h0] at hlen
      change 2 ≤ (toList n).length at h2
      cases b <;> simp at hlen <;> omega
    have hwf : WF order 0 n' := by
      rcases hwf with ⟨h0, -⟩ | h
      · exact absurd h0 hne
      · exact h
    obtain ⟨r, ec, -, -⟩ := collapse_spec ho hwf
    have e := removeKey_some (t := ⟨order, some ⟨h, n⟩⟩) rfl (by have := (wf_items hwn).1; omega) er ec
    obtain ⟨h3, -, h4⟩ := c23_remove_partial W _ ⟨ho, hwn⟩ hs x e hgood
    refine ⟨b, log, _, e, h4 ?_, h3⟩
    have hlen' := rem_length h3
    intro h0
    rw [h0] at hlen'
    cases b <;> simp at hlen' <;> omega

/-- C23 in trees with more than one item whose nodes, other than the root, all have a key to spare: every key which is not in an
inner node. -/
theorem c23_spare_partial (W : Weak less) (t : Tree α) (hw : TreeWF t) (hs : Sorted less (treeList t)) (hl : (treeList t).length + 1 < 2 ^ 50)
    (hm : ∀ h n, t.root = some ⟨h, n⟩ → Spare t.order n) (x : α) (hx : ∀ h n, t.root = some ⟨h, n⟩ → OnlyLeaf less x n) (h2 : 2 ≤ (treeList t).length) :
    ∃ b log t', removeKey less t x = some (b, log, t') ∧ TreeWF t' ∧ Rem less x (treeList t) b (treeList t') := by
  obtain ⟨order, root⟩ := t
  match root with
  | none => simp [treeList] at h2
  | some ⟨h, n⟩ =>
    obtain ⟨ho, hwn⟩ := hw
    have hh : h < 50 := by
      have := height ho (by omega) hwn
      have h3 : 2 ^ (h + 1) < 2 ^ 51 := by
        have : (treeList (⟨order, some ⟨h, n⟩⟩ : Tree α)).length = (toList n).length := rfl
        omega
      have := (Nat.pow_lt_pow_iff_right (by omega)).1 h3
      omega
    obtain ⟨b, log, n', er, hlog⟩ := remove_spare W ho x true 0 n hwn hs (hm h n rfl) (hx h n rfl) (by omega)
    have hgood : ∀ a ∈ log, a.good := by intro a ha; rw [hlog a ha]; trivial
    obtain ⟨hrem, hwf⟩ := remove_spec W ho x true 0 .searching n hwn hs (by intro i hi; cases hi) er hgood
    have hlen := rem_length hrem
    have hne : toList n' ≠ [] := by
      intro h0
      rw [h0] at hlen
      change 2 ≤ (toList n).length at h2
      cases b <;> simp at hlen <;> omega
    have hwf : WF order 0 n' := by
      rcases hwf with ⟨h0, -⟩ | h
      · exact absurd h0 hne
      · exact h
    obtain ⟨r, ec, -, -⟩ := collapse_spec ho hwf
    have e := removeKey_some (t := ⟨order, some ⟨h, n⟩⟩) rfl (by have := (wf_items hwn).1; omega) er ec
    obtain ⟨h3, -, h4⟩ := c23_remove_partial W _ ⟨ho, hwn⟩ hs x e hgood
    refine ⟨b, log, _, e, h4 ?_, h3⟩
    have hlen' := rem_length h3
    intro h0
    rw [h0] at hlen'
    cases b <;> simp at hlen' <;> omega

end

/-- Insertions, a removal, and the items, the size and the answer. -/
def rmRun (xs : List Nat) (x : Nat) : Option (Bool × List Nat × Int) :=
  match addList (fun a b : Nat => decide (a < b)) (empty Nat 2) xs with
  | none => none
  | some t => (match removeKey (fun a b : Nat => decide (a < b)) t x with | none => none | some (b, _, t) => some (b, treeList t, t.size))

/-- C23 fails: removal of 1 from 1, 2, 3, 4 rotates two leaves and uses their null arrays of subtrees, and so does the removal of 0
which is not there (btree.h:1215). -/
theorem c23_rotate_violated : rmRun [1, 2, 3, 4] 1 = none ∧ rmRun [1, 2, 3, 4] 0 = none := ⟨by rfl, by rfl⟩

/-- C23 fails: removal of 2, a key of the root: the answer is true, 2 is still there and 3 is gone (btree.h:985). -/
theorem c23_inner_violated : rmRun [1, 2, 3, 4, 5] 2 = some (true, [1, 2, 4, 5], 4) := by rfl

/-- C23 fails: a rotation of inner nodes to the right puts the key to the first place of the parent (btree.h:1204): with 90, also 40
disappears, and 60 is there twice. -/
theorem c23_right_violated :
    rmRun [10, 20, 30, 40, 50, 60, 70, 80, 90, 100, 41, 42, 43, 44, 45] 90 = some (true, [10, 20, 30, 44, 41, 42, 43, 60, 45, 50, 60, 70, 80, 100], 14) := by rfl

/-- C23 fails: removal of the only item leaves the size 1 (btree.h:1033-1037). -/
theorem c23_last_violated : rmRun [1] 1 = some (true, [], 1) := by rfl

/-- Several removals. -/
def rmRuns (xs ys : List Nat) : Option (List Nat × List (List Act) × Int) :=
  match addList (fun a b : Nat => decide (a < b)) (empty Nat 2) xs with
  | none => none
  | some t =>
    (ys.foldlM (fun (p : Tree Nat × List (List Act)) y => (removeKey (fun a b : Nat => decide (a < b)) p.1 y).map fun r => (r.2.2, p.2 ++ [r.2.1])) (t, [])).map
      fun p => (treeList p.1, p.2, p.1.size)

/-- Keys of leaves with and without merging, then the key 4 of the root, merged down to a leaf; the tree becomes lower. -/
example : rmRuns [1, 2, 3, 4, 5, 6, 7, 8, 9, 10] [10, 9, 4] =
    some ([1, 2, 3, 5, 6, 7, 8], [[.none, .none], [.none, .merge], [.merge, .merge]], 7) := by rfl

end LS.BTree

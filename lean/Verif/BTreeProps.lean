/-
B-tree: insertion, lookup and rank (C22).
-/
import Verif.BTree

namespace LS.BTree

/-! ## Specification -/

namespace Spec

/-- A strict weak order, what `Compare` has to be. -/
structure Weak {α : Type} (less : α → α → Bool) : Prop where
  asymm : ∀ {a b}, less a b = true → less b a = false
  neg : ∀ {a b c}, less a c = true → less a b = true ∨ less b c = true

/-- Equal for the order. -/
def Same {α : Type} (less : α → α → Bool) (a b : α) : Prop := less a b = false ∧ less b a = false

/-- No item is smaller than an item before it. -/
def Sorted {α : Type} (less : α → α → Bool) (l : List α) : Prop := l.Pairwise fun a b => less b a = false

/-- Each item is smaller than those behind it. -/
def Strict {α : Type} (less : α → α → Bool) (l : List α) : Prop := l.Pairwise fun a b => less a b = true

/-- The keys of a node between its subtrees. -/
def inter {α : Type} : List (List α) → List α → List α
  | s :: S, i :: I => s ++ i :: inter S I
  | s :: _, [] => s
  | [], _ => []

/-- The items of a subtree from left to right. -/
def toList {α : Type} : {h : Nat} → Node α h → List α
  | 0, n => NodeF.items n
  | _ + 1, n => inter ((NodeF.subs n).map toList) (NodeF.items n)

/-- A subtree with at least `lo` keys in its root and `order - 1` in the nodes below, at most `2 * order - 1` keys in
each node, one subtree more than keys in inner nodes, and right sizes. -/
def WF {α : Type} (order : Nat) : (lo : Nat) → {h : Nat} → Node α h → Prop
  | lo, 0, n => lo ≤ (NodeF.items n).length ∧ (NodeF.items n).length ≤ 2 * order - 1 ∧ NodeF.size n = (NodeF.items n).length
  | lo, _ + 1, n => lo ≤ (NodeF.items n).length ∧ (NodeF.items n).length ≤ 2 * order - 1 ∧ (NodeF.subs n).length = (NodeF.items n).length + 1 ∧
      NodeF.size n = (inter ((NodeF.subs n).map toList) (NodeF.items n)).length ∧ ∀ s ∈ NodeF.subs n, WF order (order - 1) s

end Spec

open Spec

section

variable {α : Type} {less : α → α → Bool}

/-! ## Order -/

theorem Spec.Weak.irrefl (W : Weak less) (a : α) : less a a = false := by
  cases h : less a a
  · rfl
  · rw [W.asymm h] at h; cases h

theorem Spec.Weak.trans (W : Weak less) {a b c : α} (h1 : less a b = true) (h2 : less b c = true) : less a c = true := by
  rcases W.neg (b := a) h2 with h | h
  · rw [W.asymm h1] at h; cases h
  · exact h

/-- `a ≤ b < c`. -/
theorem Spec.Weak.le_lt (W : Weak less) {a b c : α} (h1 : less b a = false) (h2 : less b c = true) : less a c = true := by
  rcases W.neg (b := a) h2 with h | h
  · rw [h1] at h; cases h
  · exact h

/-- `a < b ≤ c`. -/
theorem Spec.Weak.lt_le (W : Weak less) {a b c : α} (h1 : less a b = true) (h2 : less c b = false) : less a c = true := by
  rcases W.neg (b := c) h1 with h | h
  · exact h
  · rw [h2] at h; cases h

/-- `a ≤ b ≤ c`. -/
theorem Spec.Weak.le_le (W : Weak less) {a b c : α} (h1 : less b a = false) (h2 : less c b = false) : less c a = false := by
  cases h : less c a
  · rfl
  · rcases W.neg (b := b) h with h | h
    · rw [h2] at h; cases h
    · rw [h1] at h; cases h

/-! ## Search in a node -/

/-- What `Search` promises on a sorted list. -/
def Found (less : α → α → Bool) (x : α) (l : List α) : Bool × Int → Prop
  | (true, pos) => ∃ l1 y l2, l = l1 ++ y :: l2 ∧ pos = l1.length ∧ Same less x y
  | (false, pos) => ∃ l1 l2, l = l1 ++ l2 ∧ pos = (l1.length : Int) - 1 ∧ (∀ y ∈ l1, less y x = true) ∧ ∀ y ∈ l2, less x y = true

theorem linear_le (x : α) : ∀ (l : List α), linear less x l ≤ l.length
  | [] => Nat.le_refl _
  | y :: l => by
    rw [linear]
    split
    · rw [List.length_cons]; have := linear_le x l; omega
    · omega

theorem linear_spec (x : α) : ∀ (l : List α), ∃ l1 l2, l = l1 ++ l2 ∧ l1.length = linear less x l ∧ (∀ y ∈ l1, less y x = true) ∧ ∀ y, l2.head? = some y → less y x = false
  | [] => ⟨[], [], rfl, rfl, by simp, by simp⟩
  | y :: l => by
    rw [linear]
    by_cases h : less y x = true
    · rw [if_pos h]
      obtain ⟨l1, l2, e, hl, h1, h2⟩ := linear_spec x l
      refine ⟨y :: l1, l2, by rw [e]; rfl, by rw [List.length_cons, hl], ?_, h2⟩
      intro z hz
      rcases List.mem_cons.1 hz with rfl | hz
      · exact h
      · exact h1 z hz
    · rw [if_neg h]
      exact ⟨[], y :: l, rfl, rfl, by simp, by simpa using h⟩

theorem binary_spec (W : Weak less) (x : α) (l : List α) (hs : Sorted less l) : ∀ (fuel lo hi : Nat) (index : Int), lo ≤ hi → hi ≤ l.length → hi - lo < fuel →
    (∀ i (h : i < l.length), i < lo → less l[i] x = true) → (∀ i (h : i < l.length), hi ≤ i → less x l[i] = true) → (lo = hi → index = (lo : Int) - 1) →
    ∃ r, binary less x l fuel lo hi index = some r ∧ Found less x l r
  | 0, lo, hi, index, _, _, hf, _, _, _ => by omega
  | fuel + 1, lo, hi, index, hle, hlen, hf, hlo, hhi, hidx => by
    rw [binary]
    by_cases hlt : lo < hi
    · rw [if_pos hlt]
      have hm : (lo + hi) / 2 < l.length := by omega
      have hm1 : lo ≤ (lo + hi) / 2 := by omega
      have hm2 : (lo + hi) / 2 < hi := by omega
      generalize (lo + hi) / 2 = m at *
      rw [List.getElem?_eq_getElem hm]
      simp only
      have hp := List.pairwise_iff_getElem.1 hs
      by_cases h1 : less x l[m] = true
      · rw [if_pos h1]
        refine binary_spec W x l hs fuel lo m _ (by omega) (by omega) (by omega) hlo ?_ (by omega)
        intro i h hi'
        by_cases e : m = i
        · subst e; exact h1
        · exact W.lt_le h1 (hp m i hm h (by omega))
      · rw [if_neg h1]
        by_cases h2 : less l[m] x = true
        · rw [if_pos h2]
          refine binary_spec W x l hs fuel (m + 1) hi _ (by omega) hlen (by omega) ?_ hhi (by omega)
          intro i h hi'
          by_cases e : i = m
          · subst e; exact h2
          · exact W.le_lt (hp i m h hm (by omega)) h2
        · rw [if_neg h2]
          refine ⟨_, rfl, l.take m, l[m], l.drop (m + 1), ?_, ?_, ?_, ?_⟩
          · rw [List.getElem_cons_drop, List.take_append_drop]
          · rw [List.length_take, Nat.min_eq_left (by omega)]
          · simpa using h1
          · simpa using h2
    · rw [if_neg hlt]
      have e : lo = hi := by omega
      subst e
      refine ⟨_, rfl, l.take lo, l.drop lo, (List.take_append_drop _ _).symm, ?_, ?_, ?_⟩
      · rw [List.length_take, Nat.min_eq_left hlen]; exact hidx rfl
      · intro y hy
        obtain ⟨i, hi, rfl⟩ := List.mem_iff_getElem.1 hy
        rw [List.length_take] at hi
        rw [List.getElem_take]
        exact hlo i _ (by omega)
      · intro y hy
        obtain ⟨i, hi, rfl⟩ := List.mem_iff_getElem.1 hy
        rw [List.getElem_drop]
        exact hhi _ _ (by omega)

theorem search_spec (W : Weak less) (x : α) (l : List α) (hs : Sorted less l) : ∃ r, search less x l = some r ∧ Found less x l r := by
  unfold search
  by_cases h : l.length ≤ 7
  · rw [if_pos h]
    by_cases h0 : l.length = 0
    · rw [if_pos h0]
      have : l = [] := List.length_eq_zero_iff.1 h0
      subst this
      exact ⟨_, rfl, [], [], rfl, rfl, by simp, by simp⟩
    · rw [if_neg h0]
      obtain ⟨l1, l2, e, hl, h1, h2⟩ := linear_spec (less := less) x l
      rw [← hl]
      cases l2 with
      | nil =>
        rw [List.append_nil] at e
        subst e
        rw [List.getElem?_eq_none (Nat.le_refl _)]
        exact ⟨_, rfl, l, [], (List.append_nil _).symm, rfl, h1, by simp⟩
      | cons y l2 =>
        have e2 : l[l1.length]? = some y := by rw [e]; simp
        rw [e2]
        simp only
        by_cases h3 : less x y = false
        · rw [if_pos h3]
          exact ⟨_, rfl, l1, y, l2, e, rfl, h3, h2 y rfl⟩
        · rw [if_neg h3]
          refine ⟨_, rfl, l1, y :: l2, e, rfl, h1, ?_⟩
          have h3 : less x y = true := by simpa using h3
          intro z hz
          rcases List.mem_cons.1 hz with rfl | hz
          · exact h3
          · have hs2 : Sorted less (y :: l2) := by
              unfold Sorted at hs
              rw [e] at hs
              exact (List.pairwise_append.1 hs).2.1
            exact W.lt_le h3 ((List.pairwise_cons.1 hs2).1 z hz)
  · rw [if_neg h]
    exact binary_spec W x l hs _ 0 l.length 0 (Nat.zero_le _) (Nat.le_refl _) (by omega) (by intro i _ h; omega) (by intro i h1 h2; omega) (by omega)

/-! ## Items of a node around a subtree -/

/-- Subtrees and keys in front. -/
def pre : List (List α) → List α → List α
  | s :: S, i :: I => s ++ i :: pre S I
  | _, _ => []

/-- Keys and subtrees behind. -/
def post : List α → List (List α) → List α
  | i :: I, s :: S => i :: (s ++ post I S)
  | _, _ => []

theorem inter_pre : ∀ (S1 : List (List α)) (I1 : List α) (S : List (List α)) (I : List α), S1.length = I1.length → inter (S1 ++ S) (I1 ++ I) = pre S1 I1 ++ inter S I
  | [], [], S, I, _ => rfl
  | s :: S1, i :: I1, S, I, h => by
    rw [List.cons_append, List.cons_append, inter, pre, inter_pre S1 I1 S I (by simpa using h), List.append_assoc]; rfl
  | [], _ :: _, _, _, h => by cases h
  | _ :: _, [], _, _, h => by cases h

theorem inter_post : ∀ (s : List α) (I : List α) (S : List (List α)), S.length = I.length → inter (s :: S) I = s ++ post I S
  | s, [], [], _ => by simp [inter, post]
  | s, i :: I, t :: S, h => by rw [inter, post, inter_post t I S (by simpa using h)]
  | _, [], _ :: _, h => by cases h
  | _, _ :: _, [], h => by cases h

theorem inter_split (S1 : List (List α)) (I1 : List α) (s : List α) (S2 : List (List α)) (I2 : List α) (h1 : S1.length = I1.length) (h2 : S2.length = I2.length) :
    inter (S1 ++ s :: S2) (I1 ++ I2) = pre S1 I1 ++ (s ++ post I2 S2) := by
  rw [inter_pre S1 I1 _ _ h1, inter_post s I2 S2 h2]

/-- A key of a node between two parts. -/
theorem inter_key (S1 : List (List α)) (I1 : List α) (m : α) (S2 : List (List α)) (I2 : List α) (h1 : S1.length = I1.length + 1) :
    inter (S1 ++ S2) (I1 ++ m :: I2) = inter S1 I1 ++ m :: inter S2 I2 := by
  induction I1 generalizing S1 with
  | nil =>
    match S1, h1 with
    | [s], _ => rw [List.cons_append, List.nil_append, List.nil_append, inter, inter]
  | cons i I1 ih =>
    match S1, h1 with
    | s :: S1, h1 =>
      rw [List.cons_append, List.cons_append, inter, inter, ih S1 (by simpa using h1), List.append_assoc]; rfl

theorem items_sub : ∀ (S : List (List α)) (I : List α), S.length = I.length + 1 → I.Sublist (inter S I)
  | s :: S, [], _ => List.nil_sublist _
  | s :: S, i :: I, h => by
    rw [inter]
    exact ((items_sub S I (by simpa using h)).cons_cons i).trans (List.sublist_append_right _ _)
  | [], _, h => by cases h

theorem pre_mem {S : List (List α)} {I : List α} {a : α} (ha : a ∈ pre S I) (hs : Sorted less (pre S I)) (W : Weak less) : ∃ i ∈ I, less i a = false := by
  induction I generalizing S with
  | nil => cases S <;> cases ha
  | cons i I ih =>
    match S with
    | [] => cases ha
    | s :: S =>
      rw [pre] at ha hs
      unfold Sorted at hs
      rw [List.pairwise_append, List.pairwise_cons] at hs
      rcases List.mem_append.1 ha with ha | ha
      · exact ⟨i, by simp, hs.2.2 a ha i (by simp)⟩
      · rcases List.mem_cons.1 ha with rfl | ha
        · exact ⟨a, by simp, W.irrefl a⟩
        · obtain ⟨j, hj, h⟩ := ih ha hs.2.1.2
          exact ⟨j, by simp [hj], h⟩

theorem post_mem {S : List (List α)} {I : List α} {a : α} (ha : a ∈ post I S) (hs : Sorted less (post I S)) (W : Weak less) : ∃ i ∈ I, less a i = false := by
  match I, S with
  | [], _ => cases ha
  | _ :: _, [] => cases ha
  | i :: I, s :: S =>
    rw [post] at ha hs
    refine ⟨i, by simp, ?_⟩
    rcases List.mem_cons.1 ha with rfl | ha
    · exact W.irrefl a
    · exact (List.pairwise_cons.1 hs).1 a ha

/-- Everything in front of and behind the subtree which the search enters. -/
theorem around (W : Weak less) {S1 S2 : List (List α)} {I1 I2 s : List α} (hs : Sorted less (pre S1 I1 ++ (s ++ post I2 S2))) {x : α}
    (h1 : ∀ y ∈ I1, less x y = false) (h2 : ∀ y ∈ I2, less y x = false) :
    (∀ a ∈ pre S1 I1, less x a = false) ∧ ∀ a ∈ post I2 S2, less a x = false := by
  unfold Sorted at hs
  rw [List.pairwise_append, List.pairwise_append] at hs
  constructor
  · intro a ha
    obtain ⟨i, hi, h⟩ := pre_mem ha hs.1 W
    exact W.le_le h (h1 i hi)
  · intro a ha
    obtain ⟨i, hi, h⟩ := post_mem ha hs.2.1.2.1 W
    exact W.le_le (h2 i hi) h

theorem around_lt (W : Weak less) {S1 S2 : List (List α)} {I1 I2 s : List α} (hs : Sorted less (pre S1 I1 ++ (s ++ post I2 S2))) {x : α}
    (h1 : ∀ y ∈ I1, less y x = true) (h2 : ∀ y ∈ I2, less x y = true) :
    (∀ a ∈ pre S1 I1, less a x = true) ∧ ∀ a ∈ post I2 S2, less x a = true := by
  unfold Sorted at hs
  rw [List.pairwise_append, List.pairwise_append] at hs
  constructor
  · intro a ha
    obtain ⟨i, hi, h⟩ := pre_mem ha hs.1 W
    exact W.le_lt h (h1 i hi)
  · intro a ha
    obtain ⟨i, hi, h⟩ := post_mem ha hs.2.1.2.1 W
    exact W.lt_le (h2 i hi) h

theorem sorted_mid {a b c : List α} (hs : Sorted less (a ++ (b ++ c))) : Sorted less b := by
  unfold Sorted at hs
  rw [List.pairwise_append, List.pairwise_append] at hs
  exact hs.2.1.1

/-- A list cut where a search enters it. -/
theorem cut {β : Type} {S : List β} {n : Nat} (h : n < S.length) : ∃ S1 s S2, S = S1 ++ s :: S2 ∧ S1.length = n ∧ S[n]? = some s :=
  ⟨S.take n, S[n], S.drop (n + 1), by rw [List.getElem_cons_drop, List.take_append_drop], by rw [List.length_take]; omega, List.getElem?_eq_getElem h⟩


/-! ## Sizes -/

theorem wf_size {order lo : Nat} : ∀ {h : Nat} {n : Node α h}, WF order lo n → size n = (toList n).length
  | 0, _, h => h.2.2
  | _ + 1, _, h => h.2.2.2.1

theorem wf_items {order lo : Nat} : ∀ {h : Nat} {n : Node α h}, WF order lo n → lo ≤ (items n).length ∧ (items n).length ≤ 2 * order - 1
  | 0, _, h => ⟨h.1, h.2.1⟩
  | _ + 1, _, h => ⟨h.1, h.2.1⟩

theorem wf_lo {order lo lo' : Nat} : ∀ {h : Nat} {n : Node α h}, WF order lo n → lo' ≤ (items n).length → WF order lo' n
  | 0, _, h, hl => ⟨hl, h.2⟩
  | _ + 1, _, h, hl => ⟨hl, h.2⟩

theorem inter_sizes {order : Nat} {h : Nat} : ∀ (S : List (Node α h)) (I : List α), S.length = I.length + 1 → (∀ s ∈ S, ∃ lo, WF order lo s) →
    sumSizes S + I.length = (inter (S.map toList) I).length
  | [s], [], _, hw => by
    obtain ⟨lo, hw⟩ := hw s (by simp)
    simp only [sumSizes, List.map_cons, inter, List.length_nil]
    rw [wf_size hw]; omega
  | s :: S, i :: I, hl, hw => by
    obtain ⟨lo, hw1⟩ := hw s (by simp)
    have := inter_sizes S I (by simpa using hl) (fun s hs => hw s (by simp [hs]))
    simp only [sumSizes, List.map_cons, inter, List.length_append, List.length_cons]
    rw [wf_size hw1]; omega
  | [], _, hl, _ => by cases hl
  | _ :: _ :: _, [], hl, _ => by simp at hl

/-! ## Splitting a full node -/

theorem drop_mid {β : Type} {a b : List β} {m : β} {n : Nat} (h : n = a.length + 1) : (a ++ m :: b).drop n = b := by
  subst h
  induction a with
  | nil => rfl
  | cons x a ih => exact ih

theorem insertIdx_mid {β : Type} (a b : List β) (x : β) : (a ++ b).insertIdx a.length x = a ++ x :: b := by
  induction a with
  | nil => cases b <;> rfl
  | cons y a ih => rw [List.cons_append, List.length_cons, List.insertIdx_succ_cons, ih]; rfl

theorem halves_spec {order lo : Nat} (ho : 2 ≤ order) : ∀ {h : Nat} (y : Node α h), WF order lo y → (items y).length = 2 * order - 1 →
    ∃ y1 m z, halves order y = some (y1, m, z) ∧ WF order (order - 1) y1 ∧ WF order (order - 1) z ∧ (items y1).length = order - 1 ∧
      (items z).length = order - 1 ∧ toList y = toList y1 ++ m :: toList z
  | 0, y, hw, hl => by
    change (NodeF.items y).length = _ at hl
    obtain ⟨J1, m, J2, e, h1, hm⟩ := cut (S := NodeF.items y) (n := order - 1) (by omega)
    have h2 : J2.length = order - 1 := by rw [e] at hl; simp at hl; omega
    have ed : ((NodeF.items y).drop order).take (order - 1) = J2 := by
      rw [e, drop_mid (by omega), List.take_of_length_le (by omega)]
    have et : (NodeF.items y).take (order - 1) = J1 := by
      rw [e, ← h1]; simp
    refine ⟨(⟨NodeF.size y - ((J2.length : Int) + 1), J1, []⟩ : NodeF α Empty), m, (⟨J2.length, J2, []⟩ : NodeF α Empty), by simp only [halves, hm, ed, et], ⟨by show order - 1 ≤ J1.length; omega, by show J1.length ≤ _; omega, ?_⟩, ⟨by show order - 1 ≤ J2.length; omega, by show J2.length ≤ _; omega, rfl⟩, h1, h2, e⟩
    show NodeF.size y - ((J2.length : Int) + 1) = J1.length
    rw [show NodeF.size y = _ from hw.2.2]
    omega
  | h + 1, y, hw, hl => by
    change (NodeF.items y).length = _ at hl
    obtain ⟨-, -, hs, hz, hc⟩ := hw
    obtain ⟨J1, m, J2, e, h1, hm⟩ := cut (S := NodeF.items y) (n := order - 1) (by omega)
    have h2 : J2.length = order - 1 := by rw [e] at hl; simp at hl; omega
    have ed : ((NodeF.items y).drop order).take (order - 1) = J2 := by
      rw [e, drop_mid (by omega), List.take_of_length_le (by omega)]
    have et : (NodeF.items y).take (order - 1) = J1 := by
      rw [e, ← h1]; simp
    have es : ((NodeF.subs y).drop order).take order = (NodeF.subs y).drop order := List.take_of_length_le (by rw [List.length_drop]; omega)
    have ht1 : ((NodeF.subs y).take order).length = J1.length + 1 := by rw [List.length_take]; omega
    have ht2 : ((NodeF.subs y).drop order).length = J2.length + 1 := by rw [List.length_drop]; omega
    have ek : inter ((NodeF.subs y).map toList) (NodeF.items y) = inter (((NodeF.subs y).take order).map toList) J1 ++ m :: inter (((NodeF.subs y).drop order).map toList) J2 := by
      rw [e, ← inter_key _ _ _ _ _ (by rw [List.length_map]; exact ht1), ← List.map_append, List.take_append_drop]
    have hw1 : ∀ s ∈ (NodeF.subs y).take order, WF order (order - 1) s := fun s hs => hc s (List.mem_of_mem_take hs)
    have hw2 : ∀ s ∈ (NodeF.subs y).drop order, WF order (order - 1) s := fun s hs => hc s (List.mem_of_mem_drop hs)
    have e2 := inter_sizes ((NodeF.subs y).drop order) J2 ht2 (fun s hs => ⟨_, hw2 s hs⟩)
    refine ⟨(⟨NodeF.size y - (sumSizes ((NodeF.subs y).drop order) + J2.length + 1), J1, (NodeF.subs y).take order⟩ : NodeF α (Node α h)), m,
      (⟨sumSizes ((NodeF.subs y).drop order) + J2.length, J2, (NodeF.subs y).drop order⟩ : NodeF α (Node α h)), by simp only [halves, hm, ed, et, es], ⟨by show order - 1 ≤ J1.length; omega, by show J1.length ≤ _; omega, ht1, ?_, hw1⟩,
      ⟨by show order - 1 ≤ J2.length; omega, by show J2.length ≤ _; omega, ht2, e2, hw2⟩, h1, h2, ek⟩
    show NodeF.size y - (sumSizes ((NodeF.subs y).drop order) + J2.length + 1) = (inter (((NodeF.subs y).take order).map toList) J1).length
    rw [hz, ek, e2, List.length_append, List.length_cons]
    omega

theorem splitChild_spec {order lo : Nat} (ho : 2 ≤ order) {h : Nat} {n : NodeF α (Node α h)} {y : Node α h} {S1 S2 : List (Node α h)} {I1 I2 : List α}
    (eI : n.items = I1 ++ I2) (eS : n.subs = S1 ++ y :: S2) (h1 : S1.length = I1.length) (hw : WF order lo y) (hl : (items y).length = 2 * order - 1) :
    ∃ y1 m z, splitChild order n I1.length y = some ⟨n.size, I1 ++ m :: I2, S1 ++ y1 :: z :: S2⟩ ∧ WF order (order - 1) y1 ∧ WF order (order - 1) z ∧
      (items y1).length = order - 1 ∧ (items z).length = order - 1 ∧ toList y = toList y1 ++ m :: toList z := by
  obtain ⟨y1, m, z, e, hr⟩ := halves_spec ho y hw hl
  refine ⟨y1, m, z, ?_, hr⟩
  rw [splitChild, e]
  simp only [eI, eS]
  rw [← h1]
  have e1 : (S1 ++ y :: S2).set S1.length y1 = S1 ++ y1 :: S2 := by simp
  have e2 : (S1 ++ y1 :: S2).insertIdx (S1.length + 1) z = S1 ++ y1 :: z :: S2 := by
    rw [show S1 ++ y1 :: S2 = (S1 ++ [y1]) ++ S2 by simp, show S1.length + 1 = (S1 ++ [y1]).length by simp]
    rw [insertIdx_mid]
    simp
  have e3 : (I1 ++ I2).insertIdx S1.length m = I1 ++ m :: I2 := by
    rw [h1, insertIdx_mid]
  rw [e1, e2, e3]


/-! ## Insertion -/

/-- What becomes of the items: nothing new when there is the same item already, or the new item at its place. -/
def Out (less : α → α → Bool) (x : α) (old : List α) (b : Bool) (new : List α) : Prop :=
  (b = false ∧ new = old ∧ ∃ y ∈ old, Same less x y) ∨
  (b = true ∧ ∃ l r, old = l ++ r ∧ new = l ++ x :: r ∧ (∀ a ∈ l, less x a = false) ∧ ∀ a ∈ r, less a x = false)

theorem out_lift {x : α} {A s s' C : List α} {b : Bool} (h : Out less x s b s') (h1 : ∀ a ∈ A, less x a = false) (h2 : ∀ a ∈ C, less a x = false) :
    Out less x (A ++ (s ++ C)) b (A ++ (s' ++ C)) := by
  rcases h with ⟨hb, rfl, y, hy, hs⟩ | ⟨hb, l, r, rfl, rfl, hl, hr⟩
  · exact .inl ⟨hb, rfl, y, by simp [hy], hs⟩
  · refine .inr ⟨hb, A ++ l, r ++ C, by simp, by simp, ?_, ?_⟩
    · intro a ha
      rcases List.mem_append.1 ha with ha | ha
      · exact h1 a ha
      · exact hl a ha
    · intro a ha
      rcases List.mem_append.1 ha with ha | ha
      · exact hr a ha
      · exact h2 a ha

theorem out_length {x : α} {old new : List α} {b : Bool} (h : Out less x old b new) : (new.length : Int) = if b then (old.length : Int) + 1 else old.length := by
  rcases h with ⟨rfl, rfl, -⟩ | ⟨rfl, l, r, rfl, rfl, -⟩
  · rfl
  · simp; omega

/-- The step at an inner node, after the insertion into one of its subtrees. -/
theorem descend (W : Weak less) {order lo : Nat} {h : Nat} {sz : Int} {y y' : Node α h} {S1 S2 : List (Node α h)} {I1 I2 : List α} {x : α} {b : Bool}
    (h1 : S1.length = I1.length) (h2 : S2.length = I2.length) (hlo : lo ≤ (I1 ++ I2).length) (hhi : (I1 ++ I2).length ≤ 2 * order - 1)
    (hw1 : ∀ s ∈ S1, WF order (order - 1) s) (hw2 : ∀ s ∈ S2, WF order (order - 1) s) (hw : WF order (order - 1) y')
    (hz : sz = (inter ((S1 ++ y :: S2).map toList) (I1 ++ I2)).length) (hs : Sorted less (inter ((S1 ++ y :: S2).map toList) (I1 ++ I2)))
    (ho : Out less x (toList y) b (toList y')) (hx1 : ∀ i ∈ I1, less x i = false) (hx2 : ∀ i ∈ I2, less i x = false) :
    WF order lo (h := h + 1) (⟨if b then sz + 1 else sz, I1 ++ I2, (S1 ++ y :: S2).set I1.length y'⟩ : NodeF α (Node α h)) ∧
      Out less x (inter ((S1 ++ y :: S2).map toList) (I1 ++ I2)) b (inter (((S1 ++ y :: S2).set I1.length y').map toList) (I1 ++ I2)) := by
  have e1 : (S1 ++ y :: S2).set I1.length y' = S1 ++ y' :: S2 := by rw [← h1]; simp
  have e : ∀ v : Node α h, inter ((S1 ++ v :: S2).map toList) (I1 ++ I2) = pre (S1.map toList) I1 ++ (toList v ++ post I2 (S2.map toList)) := by
    intro v
    rw [List.map_append, List.map_cons, inter_split _ _ _ _ _ (by rw [List.length_map]; exact h1) (by rw [List.length_map]; exact h2)]
  rw [e] at hs
  obtain ⟨ha, hb⟩ := around W hs hx1 hx2
  have hout := out_lift ho ha hb
  rw [e1, e, e]
  refine ⟨⟨hlo, hhi, ?_, ?_, ?_⟩, hout⟩
  · simp [h1, h2]; omega
  · show (if b then sz + 1 else sz) = _
    rw [e, out_length hout, hz, e]
  · intro s hs
    rcases List.mem_append.1 hs with hs | hs
    · exact hw1 s hs
    · rcases List.mem_cons.1 hs with rfl | hs
      · exact hw
      · exact hw2 s hs

theorem insert_spec (W : Weak less) {order : Nat} (ho : 2 ≤ order) (x : α) : ∀ {h : Nat} (lo sp : Nat) (n : Node α h), WF order lo n → (items n).length < 2 * order - 1 →
    Sorted less (toList n) → sp + h < 50 → ∃ b n', insert less order x sp n = some (b, n') ∧ WF order lo n' ∧ Out less x (toList n) b (toList n')
  | 0, lo, sp, n, hw, hl, hs, hsp => by
    obtain ⟨r, er, hf⟩ := search_spec W x (NodeF.items n) hs
    match r, hf with
    | (true, pos), hf =>
      obtain ⟨l1, y, l2, e, hp, hsame⟩ := hf
      exact ⟨false, n, by simp only [insert, er], hw, .inl ⟨rfl, rfl, y, by show y ∈ NodeF.items n; rw [e]; simp, hsame⟩⟩
    | (false, pos), hf =>
      obtain ⟨l1, l2, e, hp, h1, h2⟩ := hf
      have ep : (pos + 1).toNat = l1.length := by omega
      have ei : (NodeF.items n).insertIdx (pos + 1).toNat x = l1 ++ x :: l2 := by rw [e, ep, insertIdx_mid]
      refine ⟨true, (⟨NodeF.size n + 1, l1 ++ x :: l2, NodeF.subs n⟩ : NodeF α Empty), by simp only [insert, er]; rw [if_neg (by omega), ei], ?_, ?_⟩
      · change (NodeF.items n).length < _ at hl
        obtain ⟨hlo, hhi, hz⟩ := hw
        rw [e] at hlo hhi hl hz
        refine ⟨?_, ?_, ?_⟩
        · show lo ≤ (l1 ++ x :: l2).length
          simp at hlo ⊢; omega
        · show (l1 ++ x :: l2).length ≤ _
          simp at hl ⊢; omega
        · show NodeF.size n + 1 = (l1 ++ x :: l2).length
          rw [hz]; simp; omega
      · exact .inr ⟨rfl, l1, l2, e, rfl, fun a ha => W.asymm (h1 a ha), fun a ha => W.asymm (h2 a ha)⟩
  | h + 1, lo, sp, n, hw, hl, hs, hsp => by
    change (NodeF.items n).length < _ at hl
    change Sorted less (inter ((NodeF.subs n).map toList) (NodeF.items n)) at hs
    obtain ⟨hlo, hhi, hsub, hz, hc⟩ := hw
    have hsi : Sorted less (NodeF.items n) := hs.sublist (items_sub _ _ (by rw [List.length_map]; exact hsub))
    obtain ⟨r, er, hf⟩ := search_spec W x (NodeF.items n) hsi
    match r, hf with
    | (true, pos), hf =>
      obtain ⟨l1, y, l2, e, hp, hsame⟩ := hf
      refine ⟨false, n, by simp only [insert, er], ⟨hlo, hhi, hsub, hz, hc⟩, .inl ⟨rfl, rfl, y, ?_, hsame⟩⟩
      exact (items_sub ((NodeF.subs n).map toList) (NodeF.items n) (by rw [List.length_map]; exact hsub)).subset (by rw [e]; simp)
    | (false, pos), hf =>
      obtain ⟨I1, I2, e, hp, hx1, hx2⟩ := hf
      have ep : (pos + 1).toNat = I1.length := by omega
      have hIl : (NodeF.items n).length = I1.length + I2.length := by rw [e]; simp
      obtain ⟨S1, y, S2, eS, hS1, ey⟩ := cut (S := NodeF.subs n) (n := I1.length) (by omega)
      have hS2 : S2.length = I2.length := by
        have := hsub
        rw [eS] at this; simp at this; omega
      have hwy : WF order (order - 1) y := hc y (by rw [eS]; simp)
      have hw1 : ∀ s ∈ S1, WF order (order - 1) s := fun s hs => hc s (by rw [eS]; simp [hs])
      have hw2 : ∀ s ∈ S2, WF order (order - 1) s := fun s hs => hc s (by rw [eS]; simp [hs])
      have hs' := hs
      rw [eS, e] at hs'
      have hz' := hz
      rw [eS, e] at hz'
      have hx1' : ∀ i ∈ I1, less x i = false := fun i hi => W.asymm (hx1 i hi)
      have hx2' : ∀ i ∈ I2, less i x = false := fun i hi => W.asymm (hx2 i hi)
      have hsy : Sorted less (toList y) := by
        rw [List.map_append, List.map_cons, inter_split _ _ _ _ _ (by rw [List.length_map]; exact hS1) (by rw [List.length_map]; exact hS2)] at hs'
        exact sorted_mid hs'
      by_cases hfull : (items y).length = 2 * order - 1
      · obtain ⟨y1, m, z, esp, hwy1, hwz, hy1, hz1, etl⟩ := splitChild_spec ho e eS hS1 hwy hfull
        have em : (I1 ++ m :: I2)[I1.length]? = some m := by simp
        have einter : inter ((S1 ++ y1 :: z :: S2).map toList) (I1 ++ m :: I2) = inter ((S1 ++ y :: S2).map toList) (I1 ++ I2) := by
          rw [List.map_append, List.map_append, List.map_cons, List.map_cons, List.map_cons, inter_pre _ _ _ _ (by rw [List.length_map]; exact hS1),
            inter_pre _ _ _ _ (by rw [List.length_map]; exact hS1), inter, inter_post _ _ _ (by rw [List.length_map]; exact hS2),
            inter_post _ _ _ (by rw [List.length_map]; exact hS2), etl]
          simp
        have hsy' := hsy
        rw [etl] at hsy'
        unfold Sorted at hsy'
        rw [List.pairwise_append, List.pairwise_cons] at hsy'
        by_cases hlt : less x m = false
        · -- into the right half
          have eq : (S1 ++ y1 :: z :: S2)[I1.length + 1]? = some z := by rw [← hS1]; simp
          obtain ⟨b, z', ei, hwz', hout⟩ := insert_spec W ho x (order - 1) (sp + 1) z hwz (by omega) hsy'.2.1.2 (by omega)
          have hl' : ((I1 ++ [m]) ++ I2).length = I1.length + I2.length + 1 := by simp; omega
          have hd := descend (sz := NodeF.size n) (lo := lo) W (S1 := S1 ++ [y1]) (S2 := S2) (I1 := I1 ++ [m]) (I2 := I2) (y := z) (y' := z') (x := x) (b := b)
            (by simp [hS1]) hS2 (by omega) (by omega)
            (by
              intro s hs
              rcases List.mem_append.1 hs with hs | hs
              · exact hw1 s hs
              · rw [List.mem_singleton] at hs; subst hs; exact hwy1) hw2 hwz'
            (by simp only [List.append_assoc, List.cons_append, List.nil_append]; rw [einter]; exact hz')
            (by simp only [List.append_assoc, List.cons_append, List.nil_append]; rw [einter]; exact hs') hout
            (by
              intro i hi
              rcases List.mem_append.1 hi with hi | hi
              · exact hx1' i hi
              · rw [List.mem_singleton] at hi; subst hi; exact hlt) hx2'
          simp only [List.append_assoc, List.cons_append, List.nil_append, List.length_append, List.length_cons, List.length_nil, Nat.zero_add] at hd
          rw [einter] at hd
          refine ⟨b, _, ?_, hd.1, ?_⟩
          · simp only [insert, er]
            rw [if_neg (by omega), ep, ey]
            simp only
            rw [if_pos hfull, esp]
            simp only [em]
            rw [if_pos hlt]
            simp only [eq, ei]
          · show Out less x (inter ((NodeF.subs n).map toList) (NodeF.items n)) b _
            rw [eS, e]
            exact hd.2
        · -- into the left half
          have eq : (S1 ++ y1 :: z :: S2)[I1.length]? = some y1 := by rw [← hS1]; simp
          obtain ⟨b, y1', ei, hwy', hout⟩ := insert_spec W ho x (order - 1) (sp + 1) y1 hwy1 (by omega) hsy'.1 (by omega)
          have hl' : (I1 ++ (m :: I2)).length = I1.length + I2.length + 1 := by simp; omega
          have hd := descend (sz := NodeF.size n) (lo := lo) W (S1 := S1) (S2 := z :: S2) (I1 := I1) (I2 := m :: I2) (y := y1) (y' := y1') (x := x) (b := b)
            hS1 (by simp [hS2]) (by omega) (by omega) hw1
            (by
              intro s hs
              rcases List.mem_cons.1 hs with rfl | hs
              · exact hwz
              · exact hw2 s hs) hwy'
            (by rw [einter]; exact hz') (by rw [einter]; exact hs') hout hx1'
            (by
              intro i hi
              rcases List.mem_cons.1 hi with rfl | hi
              · exact W.asymm (by simpa using hlt)
              · exact hx2' i hi)
          rw [einter] at hd
          refine ⟨b, _, ?_, hd.1, ?_⟩
          · simp only [insert, er]
            rw [if_neg (by omega), ep, ey]
            simp only
            rw [if_pos hfull, esp]
            simp only [em]
            rw [if_neg hlt]
            simp only [eq, ei]
          · show Out less x (inter ((NodeF.subs n).map toList) (NodeF.items n)) b _
            rw [eS, e]
            exact hd.2
      · obtain ⟨b, y', ei, hwy', hout⟩ := insert_spec W ho x (order - 1) (sp + 1) y hwy (by have := (wf_items hwy).2; omega) hsy (by omega)
        have hd := descend (sz := NodeF.size n) (lo := lo) W (S1 := S1) (S2 := S2) (I1 := I1) (I2 := I2) (y := y) (y' := y') (x := x) (b := b)
          hS1 hS2 (by rw [← e]; exact hlo) (by rw [← e]; exact hhi) hw1 hw2 hwy' hz' hs' hout hx1' hx2'
        refine ⟨b, _, ?_, hd.1, ?_⟩
        · simp only [insert, er]
          rw [if_neg (by omega), ep, ey]
          simp only
          rw [if_neg hfull]
          simp only [ei, e, eS]
        · show Out less x (inter ((NodeF.subs n).map toList) (NodeF.items n)) b _
          rw [eS, e]
          exact hd.2


theorem out_sorted {x : α} {old new : List α} {b : Bool} (h : Out less x old b new) (hs : Sorted less old) : Sorted less new := by
  rcases h with ⟨-, rfl, -⟩ | ⟨-, l, r, rfl, rfl, hl, hr⟩
  · exact hs
  · unfold Sorted at hs ⊢
    rw [List.pairwise_append] at hs
    rw [List.pairwise_append, List.pairwise_cons]
    refine ⟨hs.1, ⟨hr, hs.2.1⟩, ?_⟩
    intro a ha b hb
    rcases List.mem_cons.1 hb with rfl | hb
    · exact hl a ha
    · exact hs.2.2 a ha b hb

/-! ## Height -/

theorem height {order : Nat} (ho : 2 ≤ order) : ∀ {h : Nat} {lo : Nat} {n : Node α h}, 1 ≤ lo → WF order lo n → 2 ^ (h + 1) ≤ (toList n).length + 1
  | 0, lo, n, hl, hw => by
    have := hw.1
    show 2 ^ 1 ≤ (NodeF.items n).length + 1
    omega
  | h + 1, lo, n, hl, hw => by
    obtain ⟨hlo, -, hsub, -, hc⟩ := hw
    show 2 ^ (h + 2) ≤ (inter ((NodeF.subs n).map toList) (NodeF.items n)).length + 1
    match eS : NodeF.subs n, eI : NodeF.items n with
    | [], _ => rw [eS] at hsub; cases hsub
    | [_], [] => rw [eI] at hlo; simp at hlo; omega
    | [_], _ :: _ => rw [eS, eI] at hsub; simp at hsub
    | _ :: _ :: _, [] => rw [eS, eI] at hsub; simp at hsub
    | a :: b :: S, i :: I =>
      have ha := height ho (by omega) (hc a (by rw [eS]; simp))
      have hb := height ho (by omega) (hc b (by rw [eS]; simp))
      have hbi : (toList b).length ≤ (inter ((b :: S).map toList) I).length := by
        rw [List.map_cons]
        cases I with
        | nil => rw [inter]; exact Nat.le_refl _
        | cons j J => rw [inter, List.length_append]; omega
      rw [List.map_cons, inter, List.length_append, List.length_cons]
      rw [Nat.pow_succ]
      omega

/-! ## The tree -/

/-- The items of the tree. -/
def Spec.treeList (t : Tree α) : List α :=
  match t.root with
  | none => []
  | some ⟨_, n⟩ => toList n

/-- The order is at least 2, and a root has a key. -/
def Spec.TreeWF (t : Tree α) : Prop :=
  2 ≤ t.order ∧
  match t.root with
  | none => True
  | some ⟨_, n⟩ => WF t.order 1 n

theorem addRoot_spec (W : Weak less) {t : Tree α} (ho : 2 ≤ t.order) (x : α) {h lo : Nat} (n : Node α h) (hw : WF t.order lo n) (hne : 1 ≤ lo ∨ toList n = [])
    (hl : (items n).length < 2 * t.order - 1) (hs : Sorted less (toList n)) (hh : h < 50) :
    ∃ b t', addRoot less t x h n = some (b, t') ∧ TreeWF t' ∧ t'.order = t.order ∧ Out less x (toList n) b (treeList t') := by
  obtain ⟨b, n', e, hw', hout⟩ := insert_spec W ho x lo 0 n hw hl hs (by omega)
  refine ⟨b, ⟨t.order, some ⟨h, n'⟩⟩, by rw [addRoot, e], ⟨ho, ?_⟩, rfl, hout⟩
  show WF t.order 1 n'
  rcases hne with hne | hne
  · exact wf_lo hw' (Nat.le_trans hne (wf_items hw').1)
  · rw [hne] at hout
    rcases hout with ⟨-, -, y, hy, -⟩ | ⟨-, l, r, e1, e2, -⟩
    · cases hy
    · have e1 := List.append_eq_nil_iff.1 e1.symm
      rw [e1.1, e1.2, List.nil_append] at e2
      have : 1 ≤ (items n').length := by
        match h, n', hw' with
        | 0, n', _ => show 1 ≤ (NodeF.items n').length; rw [show NodeF.items n' = [x] from e2]; simp
        | h + 1, n', hw' =>
          -- an inner node without keys would have been empty before
          apply Nat.le_of_not_lt
          intro hc
          have hn : (items n).length = 0 := by
            cases hni : items n with
            | nil => rfl
            | cons i I =>
              exfalso
              have h1 := (items_sub ((NodeF.subs n).map toList) (NodeF.items n) (by rw [List.length_map]; exact hw.2.2.1)).subset (show i ∈ NodeF.items n by rw [show NodeF.items n = i :: I from hni]; simp)
              rw [show inter ((NodeF.subs n).map toList) (NodeF.items n) = [] from hne] at h1
              cases h1
          obtain ⟨-, -, hsub, -, hcs⟩ := hw
          match eS : NodeF.subs n with
          | [] => rw [eS] at hsub; cases hsub
          | s :: S =>
            have h2 := height ho (by omega) (hcs s (by rw [eS]; simp))
            have h3 : toList s = [] := by
              have : inter ((NodeF.subs n).map toList) (NodeF.items n) = [] := hne
              rw [eS, show NodeF.items n = [] from List.length_eq_zero_iff.1 hn, List.map_cons, inter] at this
              exact this
            rw [h3] at h2
            have := Nat.pow_le_pow_right (show 0 < 2 by decide) (show 1 ≤ h + 1 by omega)
            simp at h2 this
      exact wf_lo hw' this

theorem add_spec (W : Weak less) (t : Tree α) (hw : TreeWF t) (hs : Sorted less (treeList t)) (hl : (treeList t).length + 1 < 2 ^ 50) (x : α) :
    ∃ b t', add less t x = some (b, t') ∧ TreeWF t' ∧ t'.order = t.order ∧ Out less x (treeList t) b (treeList t') := by
  obtain ⟨order, root⟩ := t
  obtain ⟨ho, hw⟩ := hw
  match root with
  | none =>
    exact addRoot_spec W (t := ⟨order, none⟩) ho x (h := 0) (lo := 0) (⟨0, [], []⟩ : NodeF α Empty) ⟨Nat.zero_le _, Nat.zero_le _, rfl⟩ (.inr rfl)
      (show 0 < 2 * order - 1 by change 2 ≤ order at ho; omega) (.nil) (by decide)
  | some ⟨h, n⟩ =>
    change 2 ≤ order at ho
    change WF order 1 n at hw
    change Sorted less (toList n) at hs
    change (toList n).length + 1 < 2 ^ 50 at hl
    have hh : h + 1 < 50 := (Nat.pow_lt_pow_iff_right (by decide)).1 (Nat.lt_of_le_of_lt (height ho (by decide) hw) hl)
    rw [add]
    simp only
    by_cases hf : (items n).length < 2 * order - 1
    · rw [if_pos hf]
      exact addRoot_spec W (t := ⟨order, some ⟨h, n⟩⟩) ho x n hw (.inl (Nat.le_refl _)) hf hs (by omega)
    · rw [if_neg hf]
      have hfull : (items n).length = 2 * order - 1 := by have := (wf_items hw).2; omega
      obtain ⟨y1, m, z, e, h1, h2, h3, h4, h5⟩ := splitChild_spec ho (n := ⟨size n, [], [n]⟩) (S1 := []) (S2 := []) (I1 := []) (I2 := []) rfl rfl rfl hw hfull
      simp only [List.nil_append, List.length_nil] at e
      rw [e]
      have et : toList (h := h + 1) (⟨size n, [m], [y1, z]⟩ : NodeF α (Node α h)) = toList n := by
        show inter ([y1, z].map toList) [m] = _
        simp only [List.map_cons, List.map_nil, inter]
        exact h5.symm
      have := addRoot_spec W (t := ⟨order, some ⟨h, n⟩⟩) ho x (h := h + 1) (lo := 1) (⟨size n, [m], [y1, z]⟩ : NodeF α (Node α h))
        ⟨Nat.le_refl _, by show 1 ≤ 2 * order - 1; omega, rfl, by
          show size n = (toList (h := h + 1) (⟨size n, [m], [y1, z]⟩ : NodeF α (Node α h))).length
          rw [et]; exact wf_size hw, by
          intro s hs
          simp only [List.mem_cons, List.not_mem_nil, or_false] at hs
          rcases hs with rfl | rfl
          · exact h1
          · exact h2⟩ (.inl (Nat.le_refl _)) (by show 1 < 2 * order - 1; omega) (by rw [et]; exact hs) hh
      rw [et] at this
      exact this

/-! ## Lookup -/

theorem find_spec (W : Weak less) {order : Nat} (x : α) : ∀ {h lo : Nat} (n : Node α h), WF order lo n → Sorted less (toList n) →
    ∃ r, find less x n = some r ∧ (∀ y, r = some y → y ∈ toList n ∧ Same less x y) ∧ (r = none → ∀ y ∈ toList n, ¬ Same less x y)
  | 0, lo, n, hw, hs => by
    obtain ⟨r, er, hf⟩ := search_spec W x (NodeF.items n) hs
    match r, hf with
    | (true, pos), hf =>
      obtain ⟨l1, y, l2, e, hp, hsame⟩ := hf
      refine ⟨some y, ?_, ?_, by simp⟩
      · simp only [find, er]
        rw [e, show pos.toNat = l1.length by omega]
        simp
      · rintro _ ⟨⟩
        exact ⟨by show y ∈ NodeF.items n; rw [e]; simp, hsame⟩
    | (false, pos), hf =>
      obtain ⟨l1, l2, e, hp, h1, h2⟩ := hf
      refine ⟨none, by simp only [find, er], by simp, ?_⟩
      intro _ y hy hsame
      rw [show toList n = l1 ++ l2 from e] at hy
      rcases List.mem_append.1 hy with hy | hy
      · exact absurd (h1 y hy) (by rw [hsame.2]; decide)
      · exact absurd (h2 y hy) (by rw [hsame.1]; decide)
  | h + 1, lo, n, hw, hs => by
    change Sorted less (inter ((NodeF.subs n).map toList) (NodeF.items n)) at hs
    obtain ⟨hlo, hhi, hsub, hz, hc⟩ := hw
    have hI := items_sub ((NodeF.subs n).map toList) (NodeF.items n) (by rw [List.length_map]; exact hsub)
    obtain ⟨r, er, hf⟩ := search_spec W x (NodeF.items n) (hs.sublist hI)
    match r, hf with
    | (true, pos), hf =>
      obtain ⟨l1, y, l2, e, hp, hsame⟩ := hf
      refine ⟨some y, ?_, ?_, by simp⟩
      · simp only [find, er]
        rw [e, show pos.toNat = l1.length by omega]
        simp
      · rintro _ ⟨⟩
        exact ⟨hI.subset (by rw [e]; simp), hsame⟩
    | (false, pos), hf =>
      obtain ⟨I1, I2, e, hp, hx1, hx2⟩ := hf
      obtain ⟨S1, y, S2, eS, hS1, ey⟩ := cut (S := NodeF.subs n) (n := I1.length) (by rw [hsub, e]; simp; omega)
      have hS2 : S2.length = I2.length := by
        have := hsub
        rw [eS, e] at this; simp at this; omega
      have etl : inter ((NodeF.subs n).map toList) (NodeF.items n) = pre (S1.map toList) I1 ++ (toList y ++ post I2 (S2.map toList)) := by
        rw [eS, e, List.map_append, List.map_cons, inter_split _ _ _ _ _ (by rw [List.length_map]; exact hS1) (by rw [List.length_map]; exact hS2)]
      rw [etl] at hs
      obtain ⟨ha, hb⟩ := around_lt W hs hx1 hx2
      obtain ⟨r, er', h1, h2⟩ := find_spec W x y (hc y (by rw [eS]; simp)) (sorted_mid hs)
      refine ⟨r, ?_, ?_, ?_⟩
      · simp only [find, er]
        rw [show (pos + 1).toNat = I1.length by omega, ey]
        exact er'
      · intro z hz
        obtain ⟨hm, hsame⟩ := h1 z hz
        refine ⟨?_, hsame⟩
        show z ∈ inter ((NodeF.subs n).map toList) (NodeF.items n)
        rw [etl]; simp [hm]
      · intro hr z hz hsame
        change z ∈ inter ((NodeF.subs n).map toList) (NodeF.items n) at hz
        rw [etl] at hz
        rcases List.mem_append.1 hz with hz | hz
        · exact absurd (ha z hz) (by rw [hsame.2]; decide)
        · rcases List.mem_append.1 hz with hz | hz
          · exact h2 hr z hz hsame
          · exact absurd (hb z hz) (by rw [hsame.1]; decide)

/-! ## Rank -/

theorem pick_spec {order : Nat} {h : Nat} : ∀ (S : List (Node α h)) (I : List α) (r : Nat), S.length = I.length + 1 → (∀ s ∈ S, WF order (order - 1) s) →
    r < (inter (S.map toList) I).length →
    (∃ i, pick S I r = some (.inl i) ∧ (inter (S.map toList) I)[r]? = some i) ∨
    ∃ s r', pick S I r = some (.inr (s, (r' : Nat))) ∧ s ∈ S ∧ r' < (toList s).length ∧ (inter (S.map toList) I)[r]? = (toList s)[r']?
  | [s], [], r, _, hw, hr => by
    refine .inr ⟨s, r, rfl, by simp, ?_, ?_⟩
    · simpa [inter] using hr
    · simp [inter]
  | s :: S, i :: I, r, hl, hw, hr => by
    rw [List.map_cons, inter] at hr ⊢
    rw [pick, wf_size (hw s (by simp))]
    by_cases h1 : ((toList s).length : Int) > r
    · rw [if_pos h1]
      exact .inr ⟨s, r, rfl, by simp, by omega, List.getElem?_append_left (by omega)⟩
    · rw [if_neg h1]
      by_cases h2 : (r : Int) - (toList s).length = 0
      · rw [if_pos h2]
        refine .inl ⟨i, rfl, ?_⟩
        rw [List.getElem?_append_right (by omega), show r - (toList s).length = 0 by omega]
        rfl
      · rw [if_neg h2]
        have e : (r : Int) - (toList s).length - 1 = ((r - (toList s).length - 1 : Nat) : Int) := by omega
        have e2 : (toList s ++ i :: inter (S.map toList) I)[r]? = (inter (S.map toList) I)[r - (toList s).length - 1]? := by
          rw [List.getElem?_append_right (by omega)]
          obtain ⟨k, hk⟩ : ∃ k, r - (toList s).length = k + 1 := ⟨r - (toList s).length - 1, by omega⟩
          rw [hk]; rfl
        rw [e, e2]
        rw [List.length_append, List.length_cons] at hr
        rcases pick_spec S I (r - (toList s).length - 1) (by simpa using hl) (fun s hs => hw s (by simp [hs])) (by omega) with h | ⟨s', r', h1, h2, h3, h4⟩
        · exact .inl h
        · exact .inr ⟨s', r', h1, by simp [h2], h3, h4⟩
  | [], _, _, hl, _, _ => by cases hl
  | _ :: _ :: _, [], _, hl, _, _ => by simp at hl

theorem itemAt_spec {order : Nat} : ∀ {h lo : Nat} (n : Node α h), WF order lo n → ∀ r : Nat, r < (toList n).length → itemAt n r = (toList n)[r]?
  | 0, _, n, _, r, hr => by
    rw [itemAt, if_pos (by omega), Int.toNat_natCast]; rfl
  | h + 1, _, n, hw, r, hr => by
    obtain ⟨-, -, hsub, -, hc⟩ := hw
    rw [itemAt]
    rcases pick_spec (NodeF.subs n) (NodeF.items n) r hsub hc hr with ⟨i, e, e2⟩ | ⟨s, r', e, hm, hlt, e2⟩
    · rw [e]; exact e2.symm
    · rw [e]
      simp only
      rw [itemAt_spec s (hc s hm) r' hlt]
      exact e2.symm

theorem sizes_spec {order : Nat} {h : Nat} : ∀ (S1 : List (Node α h)) (I1 : List α) (S : List (Node α h)), S1.length = I1.length → (∀ s ∈ S1, WF order (order - 1) s) →
    ∃ c, sizes I1.length (S1 ++ S) = some c ∧ c + I1.length = (pre (S1.map toList) I1).length
  | [], [], S, _, _ => ⟨0, by simp [sizes], rfl⟩
  | s :: S1, i :: I1, S, hl, hw => by
    obtain ⟨c, e, h⟩ := sizes_spec S1 I1 S (by simpa using hl) (fun s hs => hw s (by simp [hs]))
    refine ⟨size s + c, by rw [List.length_cons, List.cons_append, sizes, e]; rfl, ?_⟩
    rw [List.map_cons, pre, List.length_append, List.length_cons, List.length_cons, wf_size (hw s (by simp))]
    omega
  | [], _ :: _, _, hl, _ => by cases hl
  | _ :: _, [], _, hl, _ => by cases hl

/-- Smaller items, for a list cut at the place of `x`. -/
theorem count_cut {x : α} {a b : List α} (h1 : ∀ y ∈ a, less y x = true) (h2 : ∀ y ∈ b, less y x = false) : (a ++ b).countP (less · x) = a.length := by
  rw [List.countP_append, List.countP_eq_length.2 h1, List.countP_eq_zero.2 (fun y hy => by rw [h2 y hy]; simp)]
  rfl

theorem strict_sorted (W : Weak less) {l : List α} (h : Strict less l) : Sorted less l := h.imp fun h => W.asymm h

/-- With a strictly sorted list, items in front of an equal one are smaller, those behind are not. -/
theorem count_at (W : Weak less) {x y : α} {a b : List α} (hs : Strict less (a ++ y :: b)) (h : Same less x y) : (a ++ y :: b).countP (less · x) = a.length := by
  unfold Strict at hs
  rw [List.pairwise_append, List.pairwise_cons] at hs
  apply count_cut
  · intro z hz
    exact W.lt_le (hs.2.2 z hz y (by simp)) h.1
  · intro z hz
    rcases List.mem_cons.1 hz with rfl | hz
    · exact h.2
    · exact W.asymm (W.le_lt h.2 (hs.2.1.1 z hz))

theorem rankIn_spec (W : Weak less) {order : Nat} (x : α) : ∀ {h lo : Nat} (n : Node α h), WF order lo n → Strict less (toList n) →
    rankIn less x n = some (((toList n).countP (less · x) : Nat) : Int)
  | 0, lo, n, hw, hs => by
    obtain ⟨r, er, hf⟩ := search_spec W x (NodeF.items n) (strict_sorted W hs)
    change Strict less (NodeF.items n) at hs
    show _ = some (((NodeF.items n).countP (less · x) : Nat) : Int)
    match r, hf with
    | (true, pos), hf =>
      obtain ⟨l1, y, l2, e, hp, hsame⟩ := hf
      simp only [rankIn, er]
      rw [e] at hs ⊢
      rw [count_at W hs hsame, hp]
    | (false, pos), hf =>
      obtain ⟨l1, l2, e, hp, h1, h2⟩ := hf
      simp only [rankIn, er]
      rw [e, count_cut h1 (fun y hy => W.asymm (h2 y hy))]
      congr 1; omega
  | h + 1, lo, n, hw, hs => by
    change Strict less (inter ((NodeF.subs n).map toList) (NodeF.items n)) at hs
    show _ = some (((inter ((NodeF.subs n).map toList) (NodeF.items n)).countP (less · x) : Nat) : Int)
    obtain ⟨hlo, hhi, hsub, hz, hc⟩ := hw
    have hI := items_sub ((NodeF.subs n).map toList) (NodeF.items n) (by rw [List.length_map]; exact hsub)
    obtain ⟨r, er, hf⟩ := search_spec W x (NodeF.items n) ((strict_sorted W hs).sublist hI)
    match r, hf with
    | (true, pos), hf =>
      obtain ⟨I1, k, I2, e, hp, hsame⟩ := hf
      obtain ⟨S1, y, S2, eS, hS1, ey⟩ := cut (S := NodeF.subs n) (n := I1.length) (by rw [hsub, e]; simp; omega)
      have hS2 : S2.length = I2.length + 1 := by
        have := hsub
        rw [eS, e] at this; simp at this; omega
      have etl : inter ((NodeF.subs n).map toList) (NodeF.items n) = (pre (S1.map toList) I1 ++ toList y) ++ k :: inter (S2.map toList) I2 := by
        rw [eS, e, List.map_append, List.map_cons, inter_pre _ _ _ _ (by rw [List.length_map]; exact hS1), inter, List.append_assoc]
      obtain ⟨c, ec, hcn⟩ := sizes_spec (S1 ++ [y]) (I1 ++ [k]) S2 (by simp [hS1]) (by
        intro s hs
        exact hc s (by rw [eS]; simp at hs ⊢; rcases hs with h | h <;> simp [h]))
      have epre : (pre ((S1 ++ [y]).map toList) (I1 ++ [k])).length = (pre (S1.map toList) I1 ++ toList y).length + 1 := by
        have h0 : ∀ (A : List (List α)) (B : List α), A.length = B.length → ∀ s i, pre (A ++ [s]) (B ++ [i]) = pre A B ++ (s ++ [i]) := by
          intro A
          induction A with
          | nil => intro B hB s i; rw [List.length_eq_zero_iff.1 hB.symm]; simp [pre]
          | cons a A ih =>
            intro B hB s i
            match B, hB with
            | b :: B, hB => rw [List.cons_append, List.cons_append, pre, pre, ih B (by simpa using hB)]; simp
        rw [List.map_append, List.map_cons, List.map_nil, h0 _ _ (by rw [List.length_map]; exact hS1)]
        simp; omega
      simp only [rankIn, er]
      rw [show (pos + 1).toNat = (I1 ++ [k]).length by simp; omega, eS, show S1 ++ y :: S2 = (S1 ++ [y]) ++ S2 by simp, ec]
      simp only [if_true]
      rw [show (S1 ++ [y]) ++ S2 = S1 ++ y :: S2 by simp, ← eS, etl]
      rw [etl] at hs
      rw [count_at W hs hsame]
      rw [epre] at hcn
      simp at hcn
      congr 1
      simp; omega
    | (false, pos), hf =>
      obtain ⟨I1, I2, e, hp, hx1, hx2⟩ := hf
      obtain ⟨S1, y, S2, eS, hS1, ey⟩ := cut (S := NodeF.subs n) (n := I1.length) (by rw [hsub, e]; simp; omega)
      have hS2 : S2.length = I2.length := by
        have := hsub
        rw [eS, e] at this; simp at this; omega
      have etl : inter ((NodeF.subs n).map toList) (NodeF.items n) = pre (S1.map toList) I1 ++ (toList y ++ post I2 (S2.map toList)) := by
        rw [eS, e, List.map_append, List.map_cons, inter_split _ _ _ _ _ (by rw [List.length_map]; exact hS1) (by rw [List.length_map]; exact hS2)]
      obtain ⟨c, ec, hcn⟩ := sizes_spec S1 I1 (y :: S2) hS1 (fun s hs => hc s (by rw [eS]; simp [hs]))
      rw [etl] at hs
      obtain ⟨ha, hb⟩ := around_lt W (strict_sorted W hs) hx1 hx2
      have hsy : Strict less (toList y) := by
        unfold Strict at hs
        rw [List.pairwise_append, List.pairwise_append] at hs
        exact hs.2.1.1
      have ih := rankIn_spec W x y (hc y (by rw [eS]; simp)) hsy
      simp only [rankIn, er]
      rw [show (pos + 1).toNat = I1.length by omega, ey]
      rw [← eS] at ec
      rw [ec]
      simp only [Bool.false_eq_true, if_false]
      have hz0 : (post I2 (S2.map toList)).countP (less · x) = 0 := List.countP_eq_zero.2 (fun y hy => by rw [W.asymm (hb y hy)]; simp)
      rw [ih, etl, List.countP_append, List.countP_append, List.countP_eq_length.2 ha, hz0]
      simp only [Option.map_some]
      congr 1
      omega


/-! ## Sequences of insertions -/

/-- Insertion of the items one after the other. -/
def addList (less : α → α → Bool) (t : Tree α) : List α → Option (Tree α)
  | [] => some t
  | x :: xs =>
    match add less t x with
    | none => none
    | some (_, t) => addList less t xs

theorem out_subset {x : α} {old new : List α} {b : Bool} (h : Out less x old b new) {y : α} (hy : y ∈ new) : y = x ∨ y ∈ old := by
  rcases h with ⟨-, rfl, -⟩ | ⟨-, l, r, rfl, rfl, -⟩
  · exact .inr hy
  · simp at hy ⊢
    rcases hy with h | h | h <;> simp [h]

theorem out_keep {x : α} {old new : List α} {b : Bool} (h : Out less x old b new) {y : α} (hy : y ∈ old) : y ∈ new := by
  rcases h with ⟨-, rfl, -⟩ | ⟨-, l, r, rfl, rfl, -⟩
  · exact hy
  · simp at hy ⊢
    rcases hy with h | h <;> simp [h]

theorem out_same (W : Weak less) {x : α} {old new : List α} {b : Bool} (h : Out less x old b new) : ∃ y ∈ new, Same less x y := by
  rcases h with ⟨-, rfl, h⟩ | ⟨-, l, r, rfl, rfl, -⟩
  · exact h
  · exact ⟨x, by simp, W.irrefl x, W.irrefl x⟩

theorem out_le {x : α} {old new : List α} {b : Bool} (h : Out less x old b new) : new.length ≤ old.length + 1 := by
  rcases h with ⟨-, rfl, -⟩ | ⟨-, l, r, rfl, rfl, -⟩
  · omega
  · simp; omega

theorem out_new (_ : Weak less) {x : α} {old new : List α} {b : Bool} (h : Out less x old b new) (hn : ∀ y ∈ old, ¬ Same less x y) (hs : Strict less old) :
    b = true ∧ Strict less new ∧ new.Perm (x :: old) := by
  rcases h with ⟨-, -, y, hy, h⟩ | ⟨hb, l, r, rfl, rfl, hl, hr⟩
  · exact absurd h (hn y hy)
  · refine ⟨hb, ?_, List.perm_middle⟩
    unfold Strict at hs ⊢
    rw [List.pairwise_append] at hs
    rw [List.pairwise_append, List.pairwise_cons]
    have h1 : ∀ a ∈ l, less a x = true := by
      intro a ha
      cases h : less a x
      · exact absurd ⟨hl a ha, h⟩ (hn a (by simp [ha]))
      · rfl
    have h2 : ∀ a ∈ r, less x a = true := by
      intro a ha
      cases h : less x a
      · exact absurd ⟨h, hr a ha⟩ (hn a (by simp [ha]))
      · rfl
    refine ⟨hs.1, ⟨h2, hs.2.1⟩, ?_⟩
    intro a ha b hb
    rcases List.mem_cons.1 hb with rfl | hb
    · exact h1 a ha
    · exact hs.2.2 a ha b hb

theorem Spec.Weak.same_symm (_ : Weak less) {a b : α} (h : Same less a b) : Same less b a := ⟨h.2, h.1⟩

theorem Spec.Weak.same_trans (W : Weak less) {a b c : α} (h1 : Same less a b) (h2 : Same less b c) : Same less a c :=
  ⟨W.le_le h2.1 h1.1, W.le_le h1.2 h2.2⟩

theorem addList_spec (W : Weak less) : ∀ (xs : List α) (t : Tree α), TreeWF t → Sorted less (treeList t) → (treeList t).length + xs.length < 2 ^ 50 →
    ∃ t', addList less t xs = some t' ∧ TreeWF t' ∧ t'.order = t.order ∧ Sorted less (treeList t') ∧
      (∀ y ∈ treeList t', y ∈ treeList t ∨ y ∈ xs) ∧ (∀ x ∈ treeList t, x ∈ treeList t') ∧ (∀ x ∈ xs, ∃ y ∈ treeList t', Same less x y) ∧
      ((∀ x ∈ xs, ∀ y ∈ treeList t, ¬ Same less x y) → xs.Pairwise (fun a b => ¬ Same less a b) → Strict less (treeList t) → Strict less (treeList t') ∧ (treeList t').Perm (xs ++ treeList t))
  | [], t, hw, hs, _ => ⟨t, rfl, hw, rfl, hs, fun y hy => .inl hy, fun _ h => h, by simp, fun _ _ h => ⟨h, .refl _⟩⟩
  | x :: xs, t, hw, hs, hl => by
    rw [List.length_cons] at hl
    obtain ⟨b, t1, e, hw1, ho1, hout⟩ := add_spec W t hw hs (by omega) x
    have hle := out_le hout
    obtain ⟨t', e', hw', ho', hs', h1, h2, h3, h4⟩ := addList_spec W xs t1 hw1 (out_sorted hout hs) (by omega)
    refine ⟨t', by rw [addList, e]; exact e', hw', by rw [ho', ho1], hs', ?_, ?_, ?_, ?_⟩
    · intro y hy
      rcases h1 y hy with h | h
      · rcases out_subset hout h with rfl | h
        · exact .inr (by simp)
        · exact .inl h
      · exact .inr (by simp [h])
    · intro y hy
      exact h2 y (out_keep hout hy)
    · intro y hy
      rcases List.mem_cons.1 hy with rfl | hy
      · obtain ⟨z, hz, h⟩ := out_same W hout
        exact ⟨z, h2 z hz, h⟩
      · exact h3 y hy
    · intro hn hp hst
      rw [List.pairwise_cons] at hp
      obtain ⟨-, hst1, hperm⟩ := out_new W hout (hn x (by simp)) hst
      obtain ⟨h5, h6⟩ := h4 (by
        intro y hy z hz hsame
        rcases out_subset hout hz with rfl | hz
        · exact hp.1 y hy (W.same_symm hsame)
        · exact hn y (by simp [hy]) z hz hsame) hp.2 hst1
      refine ⟨h5, h6.trans ?_⟩
      exact (hperm.append_left xs).trans List.perm_middle

theorem treeList_empty (order : Nat) : treeList (empty α order) = [] := rfl

theorem empty_wf (order : Nat) : TreeWF (empty α order) := by
  refine ⟨?_, trivial⟩
  show 2 ≤ if order > 2 then order else 2
  split <;> omega

/-! ## C22 -/

/-- C22, any insertions: the tree finds exactly what was inserted.  The bound is that of the local stacks of 50 nodes. -/
theorem c22_find (W : Weak less) (order : Nat) (xs : List α) (hl : xs.length < 2 ^ 50) :
    ∃ t, addList less (empty α order) xs = some t ∧ TreeWF t ∧ Sorted less (treeList t) ∧
      ∀ x, ∃ r, t.find less x = some r ∧ (∀ y, r = some y → y ∈ xs ∧ Same less x y) ∧ (r = none → ∀ y ∈ xs, ¬ Same less x y) := by
  obtain ⟨t, e, hw, -, hs, h1, -, h3, -⟩ := addList_spec W xs (empty α order) (empty_wf order) .nil (by rw [treeList_empty]; simpa using hl)
  refine ⟨t, e, hw, hs, ?_⟩
  intro x
  have h1 : ∀ y ∈ treeList t, y ∈ xs := by
    intro y hy
    rcases h1 y hy with h | h
    · cases h
    · exact h
  obtain ⟨order', root⟩ := t
  match root with
  | none =>
    refine ⟨none, rfl, by simp, ?_⟩
    intro _ y hy _
    obtain ⟨z, hz, -⟩ := h3 y hy
    cases hz
  | some ⟨h, n⟩ =>
    obtain ⟨r, er, hr1, hr2⟩ := find_spec W x n hw.2 hs
    refine ⟨r, er, ?_, ?_⟩
    · intro y hy
      obtain ⟨h5, h6⟩ := hr1 y hy
      exact ⟨h1 y h5, h6⟩
    · intro hr y hy hsame
      obtain ⟨z, hz, h⟩ := h3 y hy
      exact hr2 hr z hz (W.same_trans hsame h)

theorem itemWithRank_spec {order : Nat} {h : Nat} {n : Node α h} (hw : WF order 1 n) (r : Nat) (hr : r < (toList n).length) : itemWithRank n r = some (toList n)[r]? := by
  show (if (items n).length = 0 then _ else _) = _
  rw [if_neg (by have := (wf_items hw).1; omega), wf_size hw, show min (max (r : Int) 0) (((toList n).length : Int) - 1) = r by omega, itemAt_spec n hw r hr]
  rw [List.getElem?_eq_getElem hr]
  rfl

/-- C22, insertion of different items (different from each other for the order): each insertion reports success, the size is the
number of the items, the item of rank `k` is the one with `k` smaller items, and the rank of any key is the number of
smaller items.  Missing: an item which is inserted again, see `c22_duplicate_violated`. -/
theorem c22_rank_partial (W : Weak less) (order : Nat) (xs : List α) (hl : xs.length < 2 ^ 50) (hd : xs.Pairwise fun a b => ¬ Same less a b) :
    ∃ t, addList less (empty α order) xs = some t ∧ TreeWF t ∧ t.size = xs.length ∧
      (∀ k, k < xs.length → ∃ y ∈ xs, t.itemWithRank k = some (some y) ∧ xs.countP (less · y) = k) ∧
      ∀ x, t.rankOf less x = some ((xs.countP (less · x) : Nat) : Int) := by
  obtain ⟨t, e, hw, -, -, -, -, -, h4⟩ := addList_spec W xs (empty α order) (empty_wf order) .nil (by rw [treeList_empty]; simpa using hl)
  obtain ⟨hst, hperm⟩ := h4 (by intro x _ y hy; cases hy) hd .nil
  rw [treeList_empty, List.append_nil] at hperm
  refine ⟨t, e, hw, ?_, ?_, ?_⟩
  · rw [← hperm.length_eq]
    obtain ⟨order', root⟩ := t
    match root with
    | none => rfl
    | some ⟨h, n⟩ => exact wf_size hw.2
  · intro k hk
    rw [← hperm.length_eq] at hk
    refine ⟨(treeList t)[k], hperm.subset (List.getElem_mem hk), ?_, ?_⟩
    · obtain ⟨order', root⟩ := t
      match root with
      | none => cases hk
      | some ⟨h, n⟩ =>
        show itemWithRank n k = _
        rw [itemWithRank_spec hw.2 k hk]
        exact congrArg some (List.getElem?_eq_getElem hk)
    · rw [← hperm.countP_eq]
      have e := (List.take_append_drop k (treeList t)).symm
      rw [← List.getElem_cons_drop (h := hk)] at e
      have hst' := hst
      rw [e] at hst'
      have := count_at W hst' (x := (treeList t)[k]) ⟨W.irrefl _, W.irrefl _⟩
      rw [← e, List.length_take, Nat.min_eq_left (by omega)] at this
      exact this
  · intro x
    rw [← hperm.countP_eq]
    obtain ⟨order', root⟩ := t
    match root with
    | none => rfl
    | some ⟨h, n⟩ =>
      show rankOf less x n = _
      unfold rankOf
      rw [if_neg (by have := (wf_items hw.2).1; omega)]
      exact rankIn_spec W x n hw.2 hst

/-- C22, one insertion into any tree: the answer is right when the item is new, and then only this item is added. -/
theorem c22_add_new (W : Weak less) (t : Tree α) (hw : TreeWF t) (hs : Strict less (treeList t)) (hl : (treeList t).length + 1 < 2 ^ 50) (x : α)
    (hn : ∀ y ∈ treeList t, ¬ Same less x y) :
    ∃ t', add less t x = some (true, t') ∧ TreeWF t' ∧ Strict less (treeList t') ∧ (treeList t').Perm (x :: treeList t) := by
  obtain ⟨b, t', e, hw', -, hout⟩ := add_spec W t hw (strict_sorted W hs) hl x
  obtain ⟨rfl, h1, h2⟩ := out_new W hout hn hs
  exact ⟨t', e, hw', h1, h2⟩

end

/-- C22 fails for an item which is inserted again while it is the middle key of a full node: the node is split, the search goes on
to the right of the item, and the item is added a second time (btree.h:1071-1077).  Order 2, items 1 to 5 and 4 again:
six items, and the rank of 5 is 5. -/
theorem c22_duplicate_violated :
    ∃ t, addList (fun a b : Nat => decide (a < b)) (empty Nat 2) [1, 2, 3, 4, 5] = some t ∧
      (add (fun a b : Nat => decide (a < b)) t 4).map (fun r => (r.1, r.2.size, r.2.rankOf (fun a b : Nat => decide (a < b)) 5)) = some (true, 6, some 5) :=
  ⟨_, rfl, by decide +kernel⟩

theorem nat_weak : Weak (fun a b : Nat => decide (a < b)) := ⟨by simp; omega, by simp; omega⟩

example : ((addList (fun a b : Nat => decide (a < b)) (empty Nat 2) [5, 1, 9, 3, 7, 2, 8, 4, 6, 0]).map fun t =>
    (t.size, t.find (fun a b : Nat => decide (a < b)) 7, t.find (fun a b : Nat => decide (a < b)) 10, t.itemWithRank 3, t.rankOf (fun a b : Nat => decide (a < b)) 8)) =
    some (10, some (some 7), some none, some (some 3), some 8) := by rfl

/-- A tree of order 5 with twenty items, with binary search in its nodes. -/
example : ((addList (fun a b : Nat => decide (a < b)) (empty Nat 5) ((List.range 20).map fun i => i * 7 % 20)).map fun t =>
    (t.size, t.find (fun a b : Nat => decide (a < b)) 13, t.itemWithRank 17, t.itemWithRank 50, t.rankOf (fun a b : Nat => decide (a < b)) 11)) =
    some (20, some (some 13), some (some 17), some (some 19), some 11) := by rfl

end LS.BTree

import Verif.AvlTree
/-!
# C18, C19: the AVL tree is a sorted set and stays balanced
-/

namespace LS.Avl

variable {K : Type}

/-! ## Specification -/

/-- The ordering operator is a strict weak order. -/
structure StrictWeak (lt : K → K → Bool) : Prop where
  irrefl : ∀ a, lt a a = false
  trans : ∀ a b c, lt a b = true → lt b c = true → lt a c = true
  /-- keys not ordered with each other are ordered with the others in the same way -/
  weak : ∀ a b c, lt a b = true → lt a c = true ∨ lt c b = true

/-- Neither is before the other. -/
def Same (lt : K → K → Bool) (a b : K) : Prop := lt a b = false ∧ lt b a = false

theorem Same.not_lt {lt : K → K → Bool} {a b : K} (h : Same lt a b) (h' : lt a b = true) : False := by
  rw [h.1] at h'; cases h'

theorem Same.not_gt {lt : K → K → Bool} {a b : K} (h : Same lt a b) (h' : lt b a = true) : False := by
  rw [h.2] at h'; cases h'

def Sorted (lt : K → K → Bool) (l : List K) : Prop := l.Pairwise (fun a b => lt a b = true)

/-- The keys in the order of the tree. -/
def Tree.toList : Tree K → List K
  | .nil => []
  | .node l _ k r => l.toList ++ k :: r.toList

/-- Height. -/
def Tree.height : Tree K → Nat
  | .nil => 0
  | .node l _ _ r => max l.height r.height + 1

/-- Every stored balance is the difference of the heights of the subtrees and is -1, 0 or 1. -/
def Tree.Balanced : Tree K → Prop
  | .nil => True
  | .node l b _ r => l.Balanced ∧ r.Balanced ∧ b = (r.height : Int) - l.height ∧ -1 ≤ b ∧ b ≤ 1

namespace Tree

/-! ## Rotations keep the order -/

theorem rotateSingle_toList {d t t'} (h : rotateSingle (K := K) d t = .ok t') :
    t'.toList = t.toList := by
  cases t with
  | nil => cases d <;> simp [rotateSingle, link, isNil] at h
  | node l b k r =>
    cases d
    · cases r <;> simp [rotateSingle, link, isNil, setLink] at h
      subst h; simp [toList]
    · cases l <;> simp [rotateSingle, link, isNil, setLink] at h
      subst h; simp [toList]

theorem rotateDouble_toList {d t t'} (h : rotateDouble (K := K) d t = .ok t') :
    t'.toList = t.toList := by
  cases t with
  | nil => cases d <;> simp [rotateDouble, link, isNil] at h
  | node l b k r =>
    cases d
    · cases r with
      | nil => simp [rotateDouble, link, isNil] at h
      | node rl rb rk rr =>
        cases rl <;> simp [rotateDouble, link, isNil, setLink] at h
        subst h; simp [toList]
    · cases l with
      | nil => simp [rotateDouble, link, isNil] at h
      | node rl rb rk rr =>
        cases rr <;> simp [rotateDouble, link, isNil, setLink] at h
        subst h; simp [toList]

@[simp] theorem toList_setBal (b : Int) (t : Tree K) : (t.setBal b).toList = t.toList := by
  cases t <;> rfl

theorem toList_setLink (d : Bool) (t v : Tree K) (h : v.toList = (t.link d).toList) :
    (t.setLink d v).toList = t.toList := by
  cases t <;> cases d <;> simp [setLink, toList, link] at * <;> simp [h]

@[simp] theorem link_setBal (d : Bool) (b : Int) (t : Tree K) : (t.setBal b).link d = t.link d := by
  cases t <;> rfl

theorem adjustBalance_toList {d b t t'} (h : adjustBalance (K := K) d b t = .ok t') :
    t'.toList = t.toList := by
  unfold adjustBalance at h
  simp only at h
  split at h
  · cases h
  · split at h
    · cases h
    · cases h
      rw [toList_setLink, toList_setBal]
      rw [toList_setLink, toList_setBal, link_setBal]
      simp

theorem insertBalance_toList {d t t'} (h : insertBalance (K := K) d t = .ok t') :
    t'.toList = t.toList := by
  unfold insertBalance at h
  simp only at h
  split at h
  · cases h
  · split at h
    · rw [rotateSingle_toList h, toList_setLink, toList_setBal]; simp
    · split at h
      · cases h
      · rename_i h'
        rw [rotateDouble_toList h, adjustBalance_toList h']

theorem map_ok {ε α β : Type} {f : α → β} {x : Except ε α} {y : β} (h : x.map f = .ok y) :
    ∃ z, x = .ok z ∧ f z = y := by
  cases x with
  | error e => cases h
  | ok z => exact ⟨z, rfl, by cases h; rfl⟩

theorem removeBalance_toList {d t r} (h : removeBalance (K := K) d t = .ok r) :
    r.1.toList = t.toList := by
  unfold removeBalance at h
  simp only at h
  split at h
  · cases h
  · split at h
    · obtain ⟨z, hz, rfl⟩ := map_ok h
      simp only
      rw [rotateSingle_toList hz, toList_setLink, toList_setBal]; simp
    · split at h
      · split at h
        · cases h
        · rename_i h'
          obtain ⟨z, hz, rfl⟩ := map_ok h
          simp only
          rw [rotateDouble_toList hz, adjustBalance_toList h']
      · obtain ⟨z, hz, rfl⟩ := map_ok h
        simp only
        rw [rotateSingle_toList hz, toList_setLink, toList_setBal]; simp

theorem balanceAfterRemove_toList {t done d r} (h : balanceAfterRemove (K := K) t done d = .ok r) :
    r.1.toList = t.toList := by
  unfold balanceAfterRemove at h
  simp only at h
  split at h
  · cases h; rfl
  · split at h
    · cases h; simp
    · split at h
      · rw [removeBalance_toList h]; simp
      · cases h; simp

theorem takeRightMost_toList {t rm t' done} (h : takeRightMost (K := K) t = .ok (rm, t', done)) :
    t.toList = t'.toList ++ [rm] := by
  induction t generalizing rm t' done with
  | nil => simp [takeRightMost] at h
  | node l b k r _ ih =>
    unfold takeRightMost at h
    split at h
    · rename_i hr
      cases r <;> simp [isNil] at hr
      cases h; simp [toList]
    · split at h
      · cases h
      · rename_i h1
        split at h
        · cases h
        · rename_i h2
          cases h
          have := balanceAfterRemove_toList h2
          simp only at this
          rw [this]
          simp [toList, ih h1]

theorem removeRootNode_toList {l b k r t done}
    (h : removeRootNode (K := K) (node l b k r) = .ok (t, done)) :
    t.toList = l.toList ++ r.toList := by
  unfold removeRootNode at h
  split at h
  · rename_i hn
    cases l with
    | nil => simp [link, isNil] at h; obtain ⟨rfl, rfl⟩ := h; simp [toList]
    | node a1 a2 a3 a4 =>
      cases r with
      | nil => simp [link, isNil] at h; obtain ⟨rfl, rfl⟩ := h; simp [toList]
      | node a1 a2 a3 a4 => simp [link, isNil] at hn
  · split at h
    · cases h
    · rename_i h1
      have h2 := takeRightMost_toList h1
      have h3 := balanceAfterRemove_toList h
      simp only at h3
      rw [h3]
      simp [link] at h2
      simp [toList, link, h2]

/-! ## Balance -/

theorem height_nil_iff (t : Tree K) : t.height = 0 ↔ t.isNil = true := by
  cases t <;> simp [height, isNil]

/-- The subtree on the side `d` has grown by one. -/
theorem insertBalance_ok {d : Bool} {l r : Tree K} {k : K} {b : Int}
    (hl : l.Balanced) (hr : r.Balanced)
    (hb : b = (r.height : Int) - l.height) (h2 : b = 2 * side d)
    (hn : ((node l b k r).link d).bal ≠ 0) :
    ∃ t', insertBalance d (node l b k r) = .ok t' ∧ t'.Balanced ∧
      t'.height + 1 = (node l b k r).height := by
  cases d
  · simp [side] at h2
    cases l with
    | nil => simp [height] at hb; omega
    | node ll lb lk lr =>
      simp only [Balanced] at hl
      obtain ⟨h1, h3, h4, h5, h6⟩ := hl
      simp [link, bal] at hn
      unfold insertBalance
      simp only [link, isNil, bal, side]
      by_cases hlb : lb = -1
      · simp [hlb, rotateSingle, setBal, setLink, link, isNil]
        simp [height] at *
        simp [Balanced, height, *]; omega
      · have : lb = 1 := by omega
        simp [hlb, adjustBalance, link, isNil, setBal, setLink]
        cases lr with
        | nil => simp [height] at *; omega
        | node a ab ak ac =>
          simp only [Balanced] at h3
          obtain ⟨g1, g2, g3, g4, g5⟩ := h3
          have : ab = -1 ∨ ab = 0 ∨ ab = 1 := by omega
          rcases this with h | h | h <;> subst h <;>
            simp [isNil, rotateDouble, setLink, link, setBal, bal, Balanced, height, g1, g2, hr, h1]
              <;> simp only [height] at * <;> omega
  · simp [side] at h2
    cases r with
    | nil => simp [height] at hb; omega
    | node ll lb lk lr =>
      simp only [Balanced] at hr
      obtain ⟨h1, h3, h4, h5, h6⟩ := hr
      simp [link, bal] at hn
      unfold insertBalance
      simp only [link, isNil, bal, side]
      by_cases hlb : lb = 1
      · simp [hlb, rotateSingle, setBal, setLink, link, isNil]
        simp [height] at *
        simp [Balanced, height, *]; omega
      · have : lb = -1 := by omega
        simp [hlb, adjustBalance, link, isNil, setBal, setLink]
        cases ll with
        | nil => simp [height] at *; omega
        | node a ab ak ac =>
          simp only [Balanced] at h1
          obtain ⟨g1, g2, g3, g4, g5⟩ := h1
          have : ab = -1 ∨ ab = 0 ∨ ab = 1 := by omega
          rcases this with h | h | h <;> subst h <;>
            simp [isNil, rotateDouble, setLink, link, setBal, bal, Balanced, height, g1, g2, hl, h3]
              <;> simp only [height] at * <;> omega

/-- The subtree on the side `d` has become lower by one. -/
theorem removeBalance_ok {d : Bool} {l r : Tree K} {k : K} {b : Int}
    (hl : l.Balanced) (hr : r.Balanced)
    (hb : b = (r.height : Int) - l.height) (h2 : b = -2 * side d) :
    ∃ t' done, removeBalance d (node l b k r) = .ok (t', done) ∧ t'.Balanced ∧
      (done = true → t'.height = (node l b k r).height) ∧
      (done = false → t'.height + 1 = (node l b k r).height) := by
  cases d
  · simp [side] at h2
    cases r with
    | nil => simp [height] at hb; omega
    | node ll lb lk lr =>
      simp only [Balanced] at hr
      obtain ⟨h1, h3, h4, h5, h6⟩ := hr
      unfold removeBalance
      simp only [link, isNil, bal, side]
      by_cases hlb : lb = 1
      · simp [hlb, rotateSingle, setBal, setLink, link, isNil, Except.map]
        simp [height] at *
        simp [Balanced, height, *]; omega
      by_cases hlb2 : lb = 0
      · simp [hlb2, rotateSingle, setBal, setLink, link, isNil, Except.map]
        simp [height] at *
        simp [Balanced, height, *]; omega
      · have : lb = -1 := by omega
        simp [this, adjustBalance, link, isNil, setBal, setLink]
        cases ll with
        | nil => simp [height] at *; omega
        | node a ab ak ac =>
          simp only [Balanced] at h1
          obtain ⟨g1, g2, g3, g4, g5⟩ := h1
          have : ab = -1 ∨ ab = 0 ∨ ab = 1 := by omega
          rcases this with h | h | h <;> subst h <;>
            simp [isNil, rotateDouble, setLink, link, setBal, bal, Balanced, height, Except.map,
              g1, g2, hl, h3]
              <;> simp only [height] at * <;> omega
  · simp [side] at h2
    cases l with
    | nil => simp [height] at hb; omega
    | node ll lb lk lr =>
      simp only [Balanced] at hl
      obtain ⟨h1, h3, h4, h5, h6⟩ := hl
      unfold removeBalance
      simp only [link, isNil, bal, side]
      by_cases hlb : lb = -1
      · simp [hlb, rotateSingle, setBal, setLink, link, isNil, Except.map]
        simp [height] at *
        simp [Balanced, height, *]; omega
      by_cases hlb2 : lb = 0
      · simp [hlb2, rotateSingle, setBal, setLink, link, isNil, Except.map]
        simp [height] at *
        simp [Balanced, height, *]; omega
      · have : lb = 1 := by omega
        simp [this, adjustBalance, link, isNil, setBal, setLink]
        cases lr with
        | nil => simp [height] at *; omega
        | node a ab ak ac =>
          simp only [Balanced] at h3
          obtain ⟨g1, g2, g3, g4, g5⟩ := h3
          have : ab = -1 ∨ ab = 0 ∨ ab = 1 := by omega
          rcases this with h | h | h <;> subst h <;>
            simp [isNil, rotateDouble, setLink, link, setBal, bal, Balanced, height, Except.map,
              g1, g2, hr, h1]
              <;> simp only [height] at * <;> omega

/-- Height of the tree before the subtree on the side `d` became lower, if it did. -/
def oldHeight (done d : Bool) (l r : Tree K) : Nat :=
  if done then max l.height r.height + 1
  else if d then max l.height (r.height + 1) + 1 else max (l.height + 1) r.height + 1

theorem balanceAfterRemove_ok {done d : Bool} {l r : Tree K} {k : K} {b : Int}
    (hl : l.Balanced) (hr : r.Balanced) (hb1 : -1 ≤ b) (hb2 : b ≤ 1)
    (hb : b - (if done then 0 else side d) = (r.height : Int) - l.height) :
    ∃ t' done', balanceAfterRemove (node l b k r) done d = .ok (t', done') ∧ t'.Balanced ∧
      (done' = true → t'.height = oldHeight done d l r) ∧
      (done' = false → t'.height + 1 = oldHeight done d l r) := by
  unfold oldHeight
  cases done
  · have e : balanceAfterRemove (node l b k r) false d =
      if (b - side d).natAbs = 1 then .ok (node l (b - side d) k r, true)
      else if (b - side d).natAbs > 1 then removeBalance d (node l (b - side d) k r)
      else .ok (node l (b - side d) k r, false) := rfl
    rw [e]
    simp only [Bool.false_eq_true, if_false] at hb ⊢
    by_cases h1 : (b - side d).natAbs = 1
    · rw [if_pos h1]
      refine ⟨_, _, rfl, ⟨hl, hr, hb, by omega, by omega⟩, ?_, by simp⟩
      intro _
      cases d <;> simp [side, height] at * <;> omega
    · rw [if_neg h1]
      by_cases h2 : (b - side d).natAbs > 1
      · rw [if_pos h2]
        have h3 : b - side d = -2 * side d := by cases d <;> simp [side] at * <;> omega
        obtain ⟨t', done', e, g1, g2, g3⟩ := removeBalance_ok (k := k) hl hr hb h3
        refine ⟨t', done', e, g1, fun h => ?_, fun h => ?_⟩
        · rw [g2 h]; cases d <;> simp [side, height] at * <;> omega
        · rw [g3 h]; cases d <;> simp [side, height] at * <;> omega
      · rw [if_neg h2]
        refine ⟨_, _, rfl, ⟨hl, hr, hb, by omega, by omega⟩, by simp, ?_⟩
        intro _
        cases d <;> simp [side, height] at * <;> omega
  · simp [balanceAfterRemove] at hb ⊢
    exact ⟨⟨hl, hr, hb, hb1, hb2⟩, rfl⟩

theorem takeRightMost_ok {t : Tree K} (h : t.Balanced) (hn : t.isNil = false) :
    ∃ rm t' done, takeRightMost t = .ok (rm, t', done) ∧ t'.Balanced ∧
      (done = true → t'.height = t.height) ∧ (done = false → t'.height + 1 = t.height) := by
  induction t with
  | nil => simp [isNil] at hn
  | node l b k r _ ih =>
    obtain ⟨h1, h2, h3, h4, h5⟩ := h
    unfold takeRightMost
    cases hr : r.isNil
    · simp only [Bool.false_eq_true, if_false]
      obtain ⟨rm, r', done, e, g1, g2, g3⟩ := ih h2 hr
      rw [e]
      simp only
      have hb : b - (if done then 0 else side true) = (r'.height : Int) - l.height := by
        cases done
        · have := g3 rfl; simp [side]; omega
        · have := g2 rfl; simp; omega
      obtain ⟨t', done', e', k1, k2, k3⟩ := balanceAfterRemove_ok (k := k) h1 g1 h4 h5 hb
      rw [e']
      have ho : oldHeight done true l r' = (node l b k r).height := by
        cases done
        · have := g3 rfl; simp [oldHeight, height]; omega
        · have := g2 rfl; simp [oldHeight, height]; omega
      exact ⟨rm, t', done', rfl, k1, fun h => (k2 h).trans ho, fun h => (k3 h).trans ho⟩
    · simp only [if_true]
      refine ⟨k, l, false, rfl, h1, by simp, fun _ => ?_⟩
      have := (height_nil_iff r).2 hr
      simp [height, this]

theorem removeRootNode_ok {l r : Tree K} {b : Int} {k : K} (h : (node l b k r).Balanced) :
    ∃ t' done, removeRootNode (node l b k r) = .ok (t', done) ∧ t'.Balanced ∧
      (done = true → t'.height = (node l b k r).height) ∧
      (done = false → t'.height + 1 = (node l b k r).height) := by
  obtain ⟨h1, h2, h3, h4, h5⟩ := h
  unfold removeRootNode
  simp only [link, Bool.false_eq_true, if_false, if_true]
  cases hl : l.isNil
  · cases hr : r.isNil
    · simp only [Bool.or_self, Bool.false_eq_true, if_false]
      obtain ⟨rm, l', done, e, g1, g2, g3⟩ := takeRightMost_ok h1 hl
      rw [e]
      simp only [bal]
      have hb : b - (if done then 0 else side false) = (r.height : Int) - l'.height := by
        cases done
        · have := g3 rfl; simp [side]; omega
        · have := g2 rfl; simp; omega
      obtain ⟨t', done', e', k1, k2, k3⟩ := balanceAfterRemove_ok (k := rm) g1 h2 h4 h5 hb
      have ho : oldHeight done false l' r = (node l b k r).height := by
        cases done
        · have := g3 rfl; simp [oldHeight, height]; omega
        · have := g2 rfl; simp [oldHeight, height]; omega
      exact ⟨t', done', e', k1, fun h => (k2 h).trans ho, fun h => (k3 h).trans ho⟩
    · have := (height_nil_iff r).2 hr
      simp [height, this, h1]
  · have := (height_nil_iff l).2 hl
    simp [height, this, h2]

theorem remove_ok (lt : K → K → Bool) (x : K) {t : Tree K} (h : t.Balanced) :
    ∃ t' done rm, remove lt x t = .ok (t', done, rm) ∧ t'.Balanced ∧
      (done = true → t'.height = t.height) ∧ (done = false → t'.height + 1 = t.height) := by
  induction t with
  | nil => exact ⟨_, _, _, rfl, trivial, by simp, by simp⟩
  | node l b k r ihl ihr =>
    have hB := h
    obtain ⟨h1, h2, h3, h4, h5⟩ := h
    unfold remove
    simp only
    split
    · obtain ⟨l', done, rm, e, g1, g2, g3⟩ := ihl h1
      rw [e]
      simp only [setLink, Bool.false_eq_true, if_false]
      have hb : b - (if done then 0 else side false) = (r.height : Int) - l'.height := by
        cases done
        · have := g3 rfl; simp [side]; omega
        · have := g2 rfl; simp; omega
      obtain ⟨t', done', e', k1, k2, k3⟩ := balanceAfterRemove_ok (k := k) g1 h2 h4 h5 hb
      rw [e']
      have ho : oldHeight done false l' r = (node l b k r).height := by
        cases done
        · have := g3 rfl; simp [oldHeight, height]; omega
        · have := g2 rfl; simp [oldHeight, height]; omega
      exact ⟨t', done', rm, rfl, k1, fun h => (k2 h).trans ho, fun h => (k3 h).trans ho⟩
    · split
      · obtain ⟨r', done, rm, e, g1, g2, g3⟩ := ihr h2
        rw [e]
        simp only [setLink, if_true]
        have hb : b - (if done then 0 else side true) = (r'.height : Int) - l.height := by
          cases done
          · have := g3 rfl; simp [side]; omega
          · have := g2 rfl; simp; omega
        obtain ⟨t', done', e', k1, k2, k3⟩ := balanceAfterRemove_ok (k := k) h1 g1 h4 h5 hb
        rw [e']
        have ho : oldHeight done true l r' = (node l b k r).height := by
          cases done
          · have := g3 rfl; simp [oldHeight, height]; omega
          · have := g2 rfl; simp [oldHeight, height]; omega
        exact ⟨t', done', rm, rfl, k1, fun h => (k2 h).trans ho, fun h => (k3 h).trans ho⟩
      · obtain ⟨t', done, e, g1, g2, g3⟩ := removeRootNode_ok hB
        rw [e]
        exact ⟨t', done, some k, rfl, g1, g2, g3⟩

theorem insert_ok (lt : K → K → Bool) (x : K) {t : Tree K} (h : t.Balanced) :
    ∃ res, insert lt x t = .ok res ∧ ∀ t' done, res = some (t', done) → t'.Balanced ∧
      (done = true → t'.height = t.height) ∧ (done = false → t'.height = t.height + 1 ∧
        (t.isNil = false → t'.bal ≠ 0)) := by
  induction t with
  | nil =>
    refine ⟨_, rfl, ?_⟩
    intro t' done h
    cases h
    simp [Balanced, height, isNil]
  | node l b k r ihl ihr =>
    obtain ⟨h1, h2, h3, h4, h5⟩ := h
    unfold insert
    simp only
    split
    · obtain ⟨res, e, g⟩ := ihl h1
      rw [e]
      cases res with
      | none => exact ⟨none, rfl, by simp⟩
      | some p =>
        obtain ⟨l', done⟩ := p
        obtain ⟨g1, g2, g3⟩ := g l' done rfl
        simp only [setLink, Bool.false_eq_true, if_false, setBal, bal]
        cases done
        · obtain ⟨g3, g4⟩ := g3 rfl
          simp only [Bool.false_eq_true, if_false]
          by_cases hb0 : b + side false = 0
          · rw [if_pos hb0]
            refine ⟨_, rfl, ?_⟩
            intro t' done h; cases h
            simp [side] at hb0
            simp [Balanced, height, side, g1, h2]; omega
          · rw [if_neg hb0]
            by_cases hb1 : b + side false < -1 ∨ b + side false > 1
            · rw [if_pos hb1]
              simp [side] at hb1
              have hl : l.isNil = false := by
                cases h : l.isNil
                · rfl
                · have := (height_nil_iff l).2 h; omega
              obtain ⟨t', e', k1, k2⟩ := insertBalance_ok (d := false) (l := l') (r := r) (k := k)
                (b := b + side false) g1 h2 (by simp [side]; omega) (by simp [side]; omega)
                (by simpa [link] using g4 hl)
              rw [e']
              refine ⟨_, rfl, ?_⟩
              intro t'' done h; cases h
              simp [height] at k2
              simp [k1, height]; omega
            · rw [if_neg hb1]
              refine ⟨_, rfl, ?_⟩
              intro t' done h; cases h
              simp [side] at hb0 hb1
              simp [Balanced, height, side, g1, h2, bal, isNil]; omega
        · have g2 := g2 rfl
          refine ⟨_, rfl, ?_⟩
          intro t' done h; cases h
          simp [Balanced, height, g1, h2]; omega
    · split
      · obtain ⟨res, e, g⟩ := ihr h2
        rw [e]
        cases res with
        | none => exact ⟨none, rfl, by simp⟩
        | some p =>
          obtain ⟨r', done⟩ := p
          obtain ⟨g1, g2, g3⟩ := g r' done rfl
          simp only [setLink, if_true, setBal, bal]
          cases done
          · obtain ⟨g3, g4⟩ := g3 rfl
            simp only [Bool.false_eq_true, if_false]
            by_cases hb0 : b + side true = 0
            · rw [if_pos hb0]
              refine ⟨_, rfl, ?_⟩
              intro t' done h; cases h
              simp [side] at hb0
              simp [Balanced, height, side, g1, h1]; omega
            · rw [if_neg hb0]
              by_cases hb1 : b + side true < -1 ∨ b + side true > 1
              · rw [if_pos hb1]
                simp [side] at hb1
                have hl : r.isNil = false := by
                  cases h : r.isNil
                  · rfl
                  · have := (height_nil_iff r).2 h; omega
                obtain ⟨t', e', k1, k2⟩ := insertBalance_ok (d := true) (l := l) (r := r') (k := k)
                  (b := b + side true) h1 g1 (by simp [side]; omega) (by simp [side]; omega)
                  (by simpa [link] using g4 hl)
                rw [e']
                refine ⟨_, rfl, ?_⟩
                intro t'' done h; cases h
                simp [height] at k2
                simp [k1, height]; omega
              · rw [if_neg hb1]
                refine ⟨_, rfl, ?_⟩
                intro t' done h; cases h
                simp [side] at hb0 hb1
                simp [Balanced, height, side, g1, h1, bal, isNil]; omega
          · have g2 := g2 rfl
            refine ⟨_, rfl, ?_⟩
            intro t' done h; cases h
            simp [Balanced, height, g1, h1]; omega
      · exact ⟨none, rfl, by simp⟩

/-! ## Contents -/

theorem insert_toList {lt : K → K → Bool} (W : StrictWeak lt) (x : K) {t : Tree K} {res}
    (hs : Sorted lt t.toList) (h : insert lt x t = .ok res) :
    (res = none → ∃ y ∈ t.toList, Same lt x y) ∧
    ∀ t' done, res = some (t', done) → ∃ l1 l2, t.toList = l1 ++ l2 ∧ t'.toList = l1 ++ x :: l2 ∧
      (∀ y ∈ l1, lt y x = true) ∧ ∀ y ∈ l2, lt x y = true := by
  induction t generalizing res with
  | nil =>
    cases h
    refine ⟨by simp, ?_⟩
    intro t' done h
    cases h
    exact ⟨[], [], by simp [toList]⟩
  | node l b k r ihl ihr =>
    simp only [toList] at hs
    unfold Sorted at hs
    rw [List.pairwise_append, List.pairwise_cons] at hs
    obtain ⟨s1, ⟨s2, s3⟩, s4⟩ := hs
    -- the tree after the insertion below has the same keys as before balancing
    have key : ∀ (d : Bool) (nd : Tree K) (done : Bool) (res),
        (let this := (node l b k r).setLink d nd
        if done then .ok (some (this, true))
        else
          let this := this.setBal (b + side d)
          if this.bal = 0 then .ok (some (this, true))
          else if this.bal < -1 ∨ this.bal > 1 then
            (insertBalance d this).map (fun t => some (t, true))
          else .ok (some (this, false))) = (.ok res : Except Err (Option (Tree K × Bool))) →
        ∃ t' done', res = some (t', done') ∧ t'.toList = ((node l b k r).setLink d nd).toList := by
      intro d nd done res h
      simp only at h
      split at h
      · cases h; exact ⟨_, _, rfl, rfl⟩
      · split at h
        · cases h; exact ⟨_, _, rfl, toList_setBal _ _⟩
        · split at h
          · obtain ⟨z, hz, rfl⟩ := map_ok h
            exact ⟨_, _, rfl, by rw [insertBalance_toList hz, toList_setBal]⟩
          · cases h; exact ⟨_, _, rfl, toList_setBal _ _⟩
    unfold insert at h
    simp only at h
    split at h
    · rename_i hx
      cases e : insert lt x l with
      | error e' => rw [e] at h; cases h
      | ok r1 =>
        rw [e] at h
        obtain ⟨i1, i2⟩ := ihl s1 e
        cases r1 with
        | none =>
          cases h
          obtain ⟨y, hy, hy'⟩ := i1 rfl
          exact ⟨fun _ => ⟨y, by simp [toList, hy], hy'⟩, by simp⟩
        | some p =>
          obtain ⟨nd, done⟩ := p
          obtain ⟨t', done', rfl, ht⟩ := key _ _ _ _ h
          obtain ⟨l1, l2, e1, e2, e3, e4⟩ := i2 nd done rfl
          refine ⟨by simp, ?_⟩
          intro t'' d'' h''
          cases h''
          refine ⟨l1, l2 ++ k :: r.toList, by simp [toList, e1], ?_, e3, ?_⟩
          · rw [ht]; simp [setLink, toList, e2]
          · intro y hy
            simp at hy
            rcases hy with hy | hy | hy
            · exact e4 y hy
            · subst hy; exact hx
            · exact W.trans _ _ _ hx (s2 y hy)
    · split at h
      · rename_i hx
        cases e : insert lt x r with
        | error e' => rw [e] at h; cases h
        | ok r1 =>
          rw [e] at h
          obtain ⟨i1, i2⟩ := ihr s3 e
          cases r1 with
          | none =>
            cases h
            obtain ⟨y, hy, hy'⟩ := i1 rfl
            exact ⟨fun _ => ⟨y, by simp [toList, hy], hy'⟩, by simp⟩
          | some p =>
            obtain ⟨nd, done⟩ := p
            obtain ⟨t', done', rfl, ht⟩ := key _ _ _ _ h
            obtain ⟨l1, l2, e1, e2, e3, e4⟩ := i2 nd done rfl
            refine ⟨by simp, ?_⟩
            intro t'' d'' h''
            cases h''
            refine ⟨l.toList ++ k :: l1, l2, by simp [toList, e1], ?_, ?_, e4⟩
            · rw [ht]; simp [setLink, toList, e2]
            · intro y hy
              simp at hy
              rcases hy with hy | hy | hy
              · exact W.trans _ _ _ (s4 y hy k (by simp)) hx
              · subst hy; exact hx
              · exact e3 y hy
      · rename_i h1 h2
        cases h
        exact ⟨fun _ => ⟨k, by simp [toList], by simpa using h1, by simpa using h2⟩, by simp⟩

theorem remove_toList {lt : K → K → Bool} (W : StrictWeak lt) (x : K) {t t' : Tree K} {done rm}
    (hs : Sorted lt t.toList) (h : remove lt x t = .ok (t', done, rm)) :
    (rm = none → t'.toList = t.toList ∧ ∀ y ∈ t.toList, ¬ Same lt x y) ∧
    ∀ k, rm = some k → Same lt x k ∧ ∃ l1 l2, t.toList = l1 ++ k :: l2 ∧
      t'.toList = l1 ++ l2 ∧ (∀ y ∈ l1, lt y x = true) ∧ ∀ y ∈ l2, lt x y = true := by
  induction t generalizing t' done rm with
  | nil => cases h; simp [toList]
  | node l b k r ihl ihr =>
    simp only [toList] at hs
    unfold Sorted at hs
    rw [List.pairwise_append, List.pairwise_cons] at hs
    obtain ⟨s1, ⟨s2, s3⟩, s4⟩ := hs
    unfold remove at h
    simp only at h
    split at h
    · rename_i hx
      cases e : remove lt x l with
      | error e' => rw [e] at h; cases h
      | ok p =>
        rw [e] at h
        obtain ⟨l', d', rm'⟩ := p
        simp only at h
        split at h
        · cases h
        · rename_i t1 d1 hb
          cases h
          have ht := balanceAfterRemove_toList hb
          simp [setLink, toList] at ht
          obtain ⟨i1, i2⟩ := ihl s1 e
          have hgt : ∀ y, y = k ∨ y ∈ r.toList → lt x y = true := by
            rintro y (hy | hy)
            · subst hy; exact hx
            · exact W.trans _ _ _ hx (s2 y hy)
          refine ⟨fun hn => ?_, fun c hc => ?_⟩
          · obtain ⟨j1, j2⟩ := i1 hn
            refine ⟨by rw [ht]; simp [toList, j1], ?_⟩
            intro y hy
            simp only [toList, List.mem_append, List.mem_cons] at hy
            rcases hy with hy | hy
            · exact j2 y hy
            · intro hh; exact hh.not_lt (hgt y hy)
          · obtain ⟨j1, l1, l2, j2, j3, j4, j5⟩ := i2 c hc
            refine ⟨j1, l1, l2 ++ k :: r.toList, by simp [toList, j2],
              by rw [ht]; simp [j3], j4, ?_⟩
            intro y hy
            simp only [List.mem_append, List.mem_cons] at hy
            rcases hy with hy | hy
            · exact j5 y hy
            · exact hgt y hy
    · rename_i hx1
      split at h
      · rename_i hx
        cases e : remove lt x r with
        | error e' => rw [e] at h; cases h
        | ok p =>
          rw [e] at h
          obtain ⟨r', d', rm'⟩ := p
          simp only at h
          split at h
          · cases h
          · rename_i t1 d1 hb
            cases h
            have ht := balanceAfterRemove_toList hb
            simp [setLink, toList] at ht
            obtain ⟨i1, i2⟩ := ihr s3 e
            have hgt : ∀ y, y ∈ l.toList ∨ y = k → lt y x = true := by
              rintro y (hy | hy)
              · exact W.trans _ _ _ (s4 y hy k (by simp)) hx
              · subst hy; exact hx
            refine ⟨fun hn => ?_, fun c hc => ?_⟩
            · obtain ⟨j1, j2⟩ := i1 hn
              refine ⟨by rw [ht]; simp [toList, j1], ?_⟩
              intro y hy
              simp only [toList, List.mem_append, List.mem_cons] at hy
              rcases hy with hy | hy | hy
              · intro hh; exact hh.not_gt (hgt y (.inl hy))
              · intro hh; exact hh.not_gt (hgt y (.inr hy))
              · exact j2 y hy
            · obtain ⟨j1, l1, l2, j2, j3, j4, j5⟩ := i2 c hc
              refine ⟨j1, l.toList ++ k :: l1, l2, by simp [toList, j2],
                by rw [ht]; simp [j3], ?_, j5⟩
              intro y hy
              simp only [List.mem_append, List.mem_cons] at hy
              rcases hy with hy | hy | hy
              · exact hgt y (.inl hy)
              · exact hgt y (.inr hy)
              · exact j4 y hy
      · rename_i hx2
        split at h
        · cases h
        · rename_i t1 d1 hb
          cases h
          refine ⟨by simp, fun c hc => ?_⟩
          cases hc
          have hsame : Same lt x k := ⟨by simpa using hx1, by simpa using hx2⟩
          refine ⟨hsame, l.toList, r.toList, rfl, removeRootNode_toList hb, ?_, ?_⟩
          · intro y hy
            rcases W.weak y k x (s4 y hy k (by simp)) with h | h
            · exact h
            · rw [hsame.1] at h; cases h
          · intro y hy
            rcases W.weak k y x (s2 y hy) with h | h
            · rw [hsame.2] at h; cases h
            · exact h

theorem find_some {lt : K → K → Bool} {x k : K} {t : Tree K} (h : find lt x t = some k) :
    k ∈ t.toList ∧ Same lt x k := by
  induction t with
  | nil => cases h
  | node l b c r ihl ihr =>
    unfold find at h
    split at h
    · have := ihl h; exact ⟨by simp [toList, this.1], this.2⟩
    · rename_i h1
      split at h
      · have := ihr h; exact ⟨by simp [toList, this.1], this.2⟩
      · rename_i h2
        cases h
        exact ⟨by simp [toList], by simpa using h1, by simpa using h2⟩

theorem find_none {lt : K → K → Bool} (W : StrictWeak lt) {x : K} {t : Tree K}
    (hs : Sorted lt t.toList) (h : find lt x t = none) : ∀ y ∈ t.toList, ¬ Same lt x y := by
  induction t with
  | nil => simp [toList]
  | node l b k r ihl ihr =>
    simp only [toList] at hs
    unfold Sorted at hs
    rw [List.pairwise_append, List.pairwise_cons] at hs
    obtain ⟨s1, ⟨s2, s3⟩, s4⟩ := hs
    unfold find at h
    intro y hy hsm
    simp only [toList, List.mem_append, List.mem_cons] at hy
    split at h
    · rename_i hx
      rcases hy with hy | hy | hy
      · exact ihl s1 h y hy hsm
      · subst hy; exact hsm.not_lt hx
      · exact hsm.not_lt (W.trans _ _ _ hx (s2 y hy))
    · split at h
      · rename_i hx
        rcases hy with hy | hy | hy
        · exact hsm.not_gt (W.trans _ _ _ (s4 y hy k (by simp)) hx)
        · subst hy; exact hsm.not_gt hx
        · exact ihr s3 h y hy hsm
      · cases h

/-! ## Height and number of nodes -/

theorem height_setBal (b : Int) (t : Tree K) : (t.setBal b).height = t.height := by
  cases t <;> rfl

/-- Fibonacci numbers. -/
def fib : Nat → Nat
  | 0 => 0
  | 1 => 1
  | n + 2 => fib n + fib (n + 1)

theorem fib_mono {a b : Nat} (h : a ≤ b) : fib a ≤ fib b := by
  induction h with
  | refl => exact Nat.le_refl _
  | @step b _ ih =>
    refine Nat.le_trans ih ?_
    cases b with
    | zero => simp [fib]
    | succ n => simp [fib]

/-- C19: a tree of height `h` has at least `fib (h + 2) - 1` nodes. -/
theorem c19_height {t : Tree K} (h : t.Balanced) : fib (t.height + 2) ≤ t.toList.length + 1 := by
  induction t with
  | nil => simp [height, fib, toList]
  | node l b k r ihl ihr =>
    obtain ⟨h1, h2, h3, h4, h5⟩ := h
    have i1 := ihl h1
    have i2 := ihr h2
    simp only [height, toList, List.length_append, List.length_cons]
    have e : ∀ n, fib (n + 3) = fib (n + 1) + fib (n + 2) := fun n => rfl
    have key : ∀ a c : Nat, a ≤ c + 1 → c ≤ a + 1 →
        fib (max a c + 1 + 2) ≤ fib (a + 2) + fib (c + 2) := by
      intro a c h1 h2
      rw [show max a c + 1 + 2 = max a c + 3 from rfl, e]
      rcases Nat.le_total a c with h | h
      · rw [Nat.max_eq_right h]
        have := fib_mono (show c + 1 ≤ a + 2 by omega)
        omega
      · rw [Nat.max_eq_left h]
        have := fib_mono (show a + 1 ≤ c + 2 by omega)
        omega
    have := key l.height r.height (by omega) (by omega)
    omega

/-- C19: fewer than 44945570212852 (fib 67 - 1) nodes: the height is at most 64, the length of the
path in an iterator (avltreenode.h:183). -/
theorem c19_path {t : Tree K} (h : t.Balanced) (hn : t.toList.length < 44945570212852) :
    t.height ≤ 64 := by
  have := c19_height h
  rcases Nat.lt_or_ge 64 t.height with hh | hh
  · have h2 := fib_mono (show 67 ≤ t.height + 2 by omega)
    have h3 : fib 67 = 44945570212853 := by rfl
    omega
  · exact hh

/-- C19: `maxHeight` is the height. -/
theorem c19_maxHeight {t : Tree K} (h : t.Balanced) : t.maxHeight = t.height := by
  induction t with
  | nil => rfl
  | node l b k r ihl ihr =>
    obtain ⟨h1, h2, h3, h4, h5⟩ := h
    simp only [maxHeight, height, ihl h1, ihr h2]
    split <;> omega

theorem count_length (t : Tree K) : t.count = t.toList.length := by
  induction t with
  | nil => rfl
  | node l b k r ihl ihr => simp [count, toList, ihl, ihr]; omega

end Tree

/-! ## C18, C21: operations of `AVLTree` against a set -/

inductive Op (K : Type) where
  | insert (x : K)
  | erase (x : K)
  | find (x : K)
  | size
  | clear

inductive Out (K : Type) where
  | flag (b : Bool)
  | found (k : Option K)
  | num (n : Nat)
  | unit

/-- The set is a list of its members in any order. Insertion of a key which is there does nothing
and says so. -/
def SpecStep (lt : K → K → Bool) (l : List K) : Op K → Out K → List K → Prop
  | .insert x, .flag e, l' => (e = true ↔ ∃ y ∈ l, Same lt x y) ∧ l' = if e then l else x :: l
  | .erase x, .flag e, l' => (e = true ↔ ∃ y ∈ l, Same lt x y) ∧
      l' = l.filter (fun y => lt x y || lt y x)
  | .find x, .found r, l' => (∀ k, r = some k ↔ k ∈ l ∧ Same lt x k) ∧ l' = l
  | .size, .num n, l' => n = l.length ∧ l' = l
  | .clear, .unit, l' => l' = []
  | _, _, _ => False

/-- The operations of the model. -/
def St.apply (lt : K → K → Bool) (s : St K) : Op K → Except Err (St K × Out K)
  | .insert x => (s.insertValue lt x).map (fun r => (r.1, .flag r.2))
  | .erase x => (s.erase lt x).map (fun r => (r.1, .flag r.2))
  | .find x => .ok (s, .found (s.find lt x))
  | .size => .ok (s, .num s.size)
  | .clear => .ok (s.clear, .unit)

structure Rel (lt : K → K → Bool) (s : St K) (l : List K) : Prop where
  perm : s.tree.toList.Perm l
  sorted : Sorted lt s.tree.toList
  bal : s.tree.Balanced
  count : s.count = l.length

theorem sorted_insert {lt : K → K → Bool} {l1 l2 : List K} {x : K} (hs : Sorted lt (l1 ++ l2))
    (h1 : ∀ y ∈ l1, lt y x = true) (h2 : ∀ y ∈ l2, lt x y = true) : Sorted lt (l1 ++ x :: l2) := by
  unfold Sorted at *
  rw [List.pairwise_append] at *
  obtain ⟨a, b, c⟩ := hs
  refine ⟨a, List.pairwise_cons.2 ⟨h2, b⟩, ?_⟩
  intro y hy z hz
  rcases List.mem_cons.1 hz with rfl | hz
  · exact h1 y hy
  · exact c y hy z hz

theorem sorted_erase {lt : K → K → Bool} {l1 l2 : List K} {x : K} (hs : Sorted lt (l1 ++ x :: l2)) :
    Sorted lt (l1 ++ l2) :=
  List.Pairwise.sublist (by simp) hs

theorem sorted_unique {lt : K → K → Bool} {l : List K} (hs : Sorted lt l) {a b : K} (ha : a ∈ l)
    (hb : b ∈ l) (h1 : lt a b = false) (h2 : lt b a = false) : a = b := by
  induction l with
  | nil => cases ha
  | cons x l ih =>
    obtain ⟨g1, g2⟩ := List.pairwise_cons.1 hs
    rcases List.mem_cons.1 ha with rfl | ha' <;> rcases List.mem_cons.1 hb with rfl | hb'
    · rfl
    · rw [g1 b hb'] at h1; cases h1
    · rw [g1 a ha'] at h2; cases h2
    · exact ih g2 ha' hb'

/-- C18, C19, C21: every operation of the tree is the operation of the set. -/
theorem c18_step {lt : K → K → Bool} (W : StrictWeak lt) {s : St K} {l : List K} (R : Rel lt s l)
    (op : Op K) : ∃ s' out l', s.apply lt op = .ok (s', out) ∧ SpecStep lt l op out l' ∧
      Rel lt s' l' := by
  obtain ⟨hp, hs, hb, hc⟩ := R
  have hmem : ∀ y, y ∈ s.tree.toList ↔ y ∈ l := fun y => hp.mem_iff
  cases op with
  | insert x =>
    obtain ⟨res, e, g⟩ := Tree.insert_ok lt x hb
    obtain ⟨i1, i2⟩ := Tree.insert_toList W x hs e
    cases res with
    | none =>
      obtain ⟨y, hy, hy'⟩ := i1 rfl
      refine ⟨s, .flag true, l, ?_, ⟨?_, rfl⟩, hp, hs, hb, hc⟩
      · simp [St.apply, St.insertValue, St.insertNode, e, Except.map]
      · simp only [true_iff]; exact ⟨y, (hmem y).1 hy, hy'⟩
    | some p =>
      obtain ⟨t', done⟩ := p
      obtain ⟨l1, l2, e1, e2, e3, e4⟩ := i2 t' done rfl
      refine ⟨⟨t', s.count + 1⟩, .flag false, x :: l, ?_, ⟨?_, rfl⟩, ?_, ?_, ?_, ?_⟩
      · simp [St.apply, St.insertValue, St.insertNode, e, Except.map]
      · simp only [Bool.false_eq_true, false_iff]
        rintro ⟨y, hy, hy'⟩
        rw [← hmem, e1] at hy
        rcases List.mem_append.1 hy with h | h
        · exact hy'.not_gt (e3 y h)
        · exact hy'.not_lt (e4 y h)
      · simp only [e2]
        exact List.perm_middle.trans (List.Perm.cons x (e1 ▸ hp))
      · simp only [e2]
        exact sorted_insert (e1 ▸ hs) e3 e4
      · exact (g t' done rfl).1
      · simp [hc]
  | erase x =>
    obtain ⟨t', done, rm, e, g1, -, -⟩ := Tree.remove_ok lt x hb
    obtain ⟨i1, i2⟩ := Tree.remove_toList W x hs e
    cases rm with
    | none =>
      obtain ⟨j1, j2⟩ := i1 rfl
      have hno : ∀ y ∈ l, ¬ Same lt x y := fun y hy => j2 y ((hmem y).2 hy)
      refine ⟨⟨t', s.count⟩, .flag false, l, ?_, ⟨?_, ?_⟩, ?_, ?_, g1, hc⟩
      · simp [St.apply, St.erase, e, Except.map]
      · simp only [Bool.false_eq_true, false_iff]
        rintro ⟨y, hy, hy'⟩
        exact hno y hy hy'
      · rw [List.filter_eq_self.2]
        intro y hy
        have := hno y hy
        unfold Same at this
        cases h1 : lt x y <;> cases h2 : lt y x <;> simp_all
      · simp only [j1]; exact hp
      · simp only [j1]; exact hs
    | some k =>
      obtain ⟨hk, l1, l2, j1, j2, j3, j4⟩ := i2 k rfl
      have hf : s.tree.toList.filter (fun y => lt x y || lt y x) = l1 ++ l2 := by
        rw [j1, List.filter_append, List.filter_cons]
        have h0 : (lt x k || lt k x) = false := by rw [hk.1, hk.2]; rfl
        rw [h0, List.filter_eq_self.2, List.filter_eq_self.2]
        · rfl
        · intro y hy; rw [j4 y hy]; rfl
        · intro y hy; rw [j3 y hy]; simp
      have hpf : (l1 ++ l2).Perm (l.filter (fun y => lt x y || lt y x)) := hf ▸ hp.filter _
      have hlen : s.tree.toList.length = (l1 ++ l2).length + 1 := by
        rw [j1]; simp; omega
      refine ⟨⟨t', s.count - 1⟩, .flag true, l.filter (fun y => lt x y || lt y x), ?_,
        ⟨?_, rfl⟩, ?_, ?_, g1, ?_⟩
      · simp [St.apply, St.erase, e, Except.map]
      · simp only [true_iff]
        exact ⟨k, (hmem k).1 (by simp [j1]), hk⟩
      · simp only [j2]; exact hpf
      · simp only [j2]; exact sorted_erase (j1 ▸ hs)
      · simp only
        rw [hc, ← hp.length_eq, hlen, ← hpf.length_eq]; omega
  | find x =>
    refine ⟨s, .found (s.find lt x), l, rfl, ⟨?_, rfl⟩, hp, hs, hb, hc⟩
    intro k
    constructor
    · intro h
      have := Tree.find_some h
      exact ⟨(hmem k).1 this.1, this.2⟩
    · rintro ⟨h1, h2⟩
      cases h : s.find lt x with
      | none => exact absurd h2 (Tree.find_none W hs h k ((hmem k).2 h1))
      | some c =>
        have h3 := Tree.find_some h
        -- two members which are the same as `x` are one member
        have h4 : lt k c = false := by
          cases hh : lt k c with
          | false => rfl
          | true =>
            rcases W.weak k c x hh with h | h
            · rw [h2.2] at h; cases h
            · rw [h3.2.1] at h; cases h
        have h5 : lt c k = false := by
          cases hh : lt c k with
          | false => rfl
          | true =>
            rcases W.weak c k x hh with h | h
            · rw [h3.2.2] at h; cases h
            · rw [h2.1] at h; cases h
        rw [sorted_unique hs ((hmem k).2 h1) h3.1 h4 h5]
  | size => exact ⟨s, .num s.size, l, rfl, ⟨hc, rfl⟩, hp, hs, hb, hc⟩
  | clear => exact ⟨{}, .unit, [], rfl, rfl, by simp [Tree.toList], by simp [Sorted, Tree.toList],
      trivial, rfl⟩

/-- A sequence of operations and their results, from an empty tree. -/
inductive Run (lt : K → K → Bool) : List (Op K) → St K → List (Out K) → Prop
  | nil : Run lt [] {} []
  | snoc {ops s outs op s' out} : Run lt ops s outs → s.apply lt op = .ok (s', out) →
      Run lt (ops ++ [op]) s' (outs ++ [out])

/-- The same for the set. -/
inductive SpecRun (lt : K → K → Bool) : List (Op K) → List K → List (Out K) → Prop
  | nil : SpecRun lt [] [] []
  | snoc {ops l outs op l' out} : SpecRun lt ops l outs → SpecStep lt l op out l' →
      SpecRun lt (ops ++ [op]) l' (outs ++ [out])

/-- C18: any sequence of operations runs without undefined behaviour and gives the results of the
operations of the set; the keys of the tree are in order. -/
theorem c18_set {lt : K → K → Bool} (W : StrictWeak lt) {ops : List (Op K)} {s outs}
    (h : Run lt ops s outs) : ∃ l, SpecRun lt ops l outs ∧ s.tree.toList.Perm l ∧
      Sorted lt s.tree.toList := by
  have : ∃ l, SpecRun lt ops l outs ∧ Rel lt s l := by
    induction h with
    | nil => exact ⟨[], .nil, by simp [Tree.toList], by simp [Sorted, Tree.toList], trivial, rfl⟩
    | @snoc ops s outs op s' out _ he ih =>
      obtain ⟨l, h1, h2⟩ := ih
      obtain ⟨s'', out'', l', e, h3, h4⟩ := c18_step W h2 op
      rw [e] at he
      cases he
      exact ⟨l', .snoc h1 h3, h4⟩
  obtain ⟨l, h1, h2⟩ := this
  exact ⟨l, h1, h2.perm, h2.sorted⟩

theorem Run.rel {lt : K → K → Bool} (W : StrictWeak lt) {ops : List (Op K)} {s outs}
    (h : Run lt ops s outs) : ∃ l, Rel lt s l := by
  induction h with
  | nil => exact ⟨[], by simp [Tree.toList], by simp [Sorted, Tree.toList], trivial, rfl⟩
  | @snoc ops s outs op s' out _ he ih =>
    obtain ⟨l, h2⟩ := ih
    obtain ⟨s'', out'', l', e, h3, h4⟩ := c18_step W h2 op
    rw [e] at he
    cases he
    exact ⟨l', h4⟩

/-- C18: no operation fails. -/
theorem c18_total {lt : K → K → Bool} (W : StrictWeak lt) {ops : List (Op K)} {s outs}
    (h : Run lt ops s outs) (op : Op K) : ∃ s' out, Run lt (ops ++ [op]) s' (outs ++ [out]) := by
  obtain ⟨l, R⟩ := h.rel W
  obtain ⟨s', out, _, e, _⟩ := c18_step W R op
  exact ⟨s', out, .snoc h e⟩

/-- C19: after any sequence of operations the balance of each node is right and within -1..1; the
height is logarithmic. -/
theorem c19_balanced {lt : K → K → Bool} (W : StrictWeak lt) {ops : List (Op K)} {s outs}
    (h : Run lt ops s outs) : s.tree.Balanced ∧
      Tree.fib (s.tree.height + 2) ≤ s.tree.toList.length + 1 := by
  obtain ⟨l, R⟩ := h.rel W
  exact ⟨R.bal, Tree.c19_height R.bal⟩

/-- C21: after any sequence of operations the size is the number of keys. -/
theorem c21_size {lt : K → K → Bool} (W : StrictWeak lt) {ops : List (Op K)} {s outs}
    (h : Run lt ops s outs) : s.size = s.tree.toList.length := by
  obtain ⟨l, R⟩ := h.rel W
  unfold St.size
  rw [R.count, R.perm.length_eq]

/-- Numbers with `<` are an instance. -/
theorem natStrict : StrictWeak (fun a b : Nat => decide (a < b)) :=
  ⟨by simp, fun a b c => by simp; omega, fun a b c => by simp; omega⟩

/-- Insertion of 1..7 (three rotations), then of 4 again, then erasing of 4. -/
def exOps : List (Op Nat) := [1, 2, 3, 4, 5, 6, 7, 4].map .insert ++ [.erase 4, .find 5, .size]

def runList (lt : K → K → Bool) : St K → List (Op K) → Option (St K × List (Out K))
  | s, [] => some (s, [])
  | s, op :: ops => match s.apply lt op with
    | .error _ => none
    | .ok (s', out) => (runList lt s' ops).map (fun r => (r.1, out :: r.2))

deriving instance DecidableEq for Out

example : runList (fun a b : Nat => decide (a < b)) {} exOps =
    some (⟨.node (.node (.node .nil 0 1 .nil) (-1) 2 .nil) 0 3
        (.node (.node .nil 0 5 .nil) 0 6 (.node .nil 0 7 .nil)), 6⟩,
      [.flag false, .flag false, .flag false, .flag false, .flag false, .flag false, .flag false,
        .flag true, .flag true, .found (some 5), .num 6]) := by decide +kernel

end LS.Avl

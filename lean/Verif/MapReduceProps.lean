import Verif.MapReduce
import Verif.AvlTreeProps
/-
C121: the reduced result of `MapReduce`.
-/
namespace LS.MapReduce
open LS.Avl

variable {K R : Type}

/-! ## Specification -/

/-- The results of the items, combined from the left. -/
def total [Inhabited R] (add : R → R → R) : List R → R
  | [] => default
  | x :: xs => xs.foldl add x

/-- What `reduce` gives for a set: the items in ascending order combined. -/
def Reduced [Inhabited R] (lt : K → K → Bool) (f : K → R) (add : R → R → R) (l : List K) (r : R) : Prop :=
  ∃ s : List K, s.Perm l ∧ s.Pairwise (fun a b => lt a b = true) ∧ r = total add (s.map f)

/-- The map is a list of its items in any order; `V` says what `reduce` gives. -/
def SpecStep (lt : K → K → Bool) (V : List K → R → Prop) (l : List K) : Op K → Out R → List K → Prop
  | .insert x, .flag e, l' => (e = true ↔ ∃ y ∈ l, lt x y = false ∧ lt y x = false) ∧ l' = if e then l else x :: l
  | .erase x, .flag e, l' => (e = true ↔ ∃ y ∈ l, lt x y = false ∧ lt y x = false) ∧ l' = l.filter (fun y => lt x y || lt y x)
  | .clear, .unit, l' => l' = []
  | .reduce, .value r, l' => V l r ∧ l' = l
  | _, _, _ => False

def SpecRun (lt : K → K → Bool) (V : List K → R → Prop) : List K → List (Op K) → List (Out R) → Prop
  | _, [], [] => True
  | l, op :: ops, o :: os => ∃ l', SpecStep lt V l op o l' ∧ SpecRun lt V l' ops os
  | _, _, _ => False

/-- C121 in full. -/
def Claim121 : Prop := ∀ (K R : Type) (_ : Inhabited R) (lt : K → K → Bool) (f : K → R) (add : R → R → R), StrictWeak lt → (∀ a b c, add (add a b) c = add a (add b c)) →
  ∀ ops, ∃ m outs, M.run lt f add {} ops = .ok (m, outs) ∧ SpecRun lt (Reduced lt f add) [] ops outs

/-! ## The tree without flags -/

def strip : Node K R → Tree K
  | .nil => .nil
  | .node l b i r => .node (strip l) b i.key (strip r)

theorem strip_link (d : Bool) (t : Node K R) : strip (t.link d) = (strip t).link d := by
  cases t <;> cases d <;> rfl

theorem strip_setLink (d : Bool) (t v : Node K R) : strip (t.setLink d v) = (strip t).setLink d (strip v) := by
  cases t <;> cases d <;> rfl

theorem strip_setBal (b : Int) (t : Node K R) : strip (t.setBal b) = (strip t).setBal b := by
  cases t <;> rfl

theorem strip_isNil (t : Node K R) : (strip t).isNil = t.isNil := by cases t <;> rfl

theorem strip_bal (t : Node K R) : (strip t).bal = t.bal := by cases t <;> rfl

theorem strip_mark (t : Node K R) : strip (mark t) = strip t := by cases t <;> rfl

theorem strip_rotateSingle (d : Bool) (t : Node K R) : (rotateSingle d t).map strip = (strip t).rotateSingle d := by
  unfold rotateSingle Tree.rotateSingle
  simp only [← strip_link, strip_isNil]
  split
  · rfl
  · simp only [Except.map, strip_setLink, strip_mark]

theorem strip_rotateDouble (d : Bool) (t : Node K R) : (rotateDouble d t).map strip = (strip t).rotateDouble d := by
  unfold rotateDouble Tree.rotateDouble
  simp only [← strip_link, strip_isNil]
  split
  · rfl
  · split
    · rfl
    · simp only [Except.map, strip_setLink, strip_mark, strip_link]

theorem strip_adjust (d : Bool) (b : Int) (t : Node K R) : (t.adjustBalance d b).map strip = (strip t).adjustBalance d b := by
  unfold Tree.adjustBalance
  simp only [← strip_link, strip_isNil]
  split
  · rfl
  · split
    · rfl
    · simp only [Except.map, strip_setLink, strip_setBal, strip_bal]

theorem strip_insertBalance (d : Bool) (t : Node K R) : (insertBalance d t).map strip = (strip t).insertBalance d := by
  unfold insertBalance Tree.insertBalance
  simp only [← strip_link, strip_isNil, strip_bal]
  split
  · rfl
  · split
    · rw [strip_rotateSingle, strip_setLink, strip_setBal, strip_setBal]
    · rw [← strip_adjust]
      cases t.adjustBalance d (Tree.side d) with
      | error e => rfl
      | ok t => exact strip_rotateDouble _ _

theorem map_pair (x : Except Err (Node K R)) (b : Bool) : (x.map (·, b)).map (fun p => (strip p.1, p.2)) = (x.map strip).map (·, b) := by
  cases x <;> rfl

theorem strip_removeBalance (d : Bool) (t : Node K R) : (removeBalance d t).map (fun p => (strip p.1, p.2)) = (strip t).removeBalance d := by
  unfold removeBalance Tree.removeBalance
  simp only [← strip_link, strip_isNil, strip_bal]
  split
  · rfl
  · split
    · rw [map_pair, strip_rotateSingle, strip_setLink, strip_setBal, strip_setBal]
    · split
      · rw [← strip_adjust]
        cases t.adjustBalance (!d) (-Tree.side d) with
        | error e => rfl
        | ok t =>
          show ((rotateDouble d t).map (·, false)).map (fun p => (strip p.1, p.2)) = ((strip t).rotateDouble d).map (·, false)
          rw [map_pair, strip_rotateDouble]
      · rw [map_pair, strip_rotateSingle, strip_setLink, strip_setBal, strip_setBal]

theorem strip_bar (t : Node K R) (done d : Bool) : (balanceAfterRemove t done d).map (fun p => (strip p.1, p.2)) = (strip t).balanceAfterRemove done d := by
  unfold balanceAfterRemove Tree.balanceAfterRemove
  simp only [strip_bal]
  split
  · rfl
  · split
    · simp only [Except.map, strip_setBal]
    · split
      · rw [strip_removeBalance, strip_setBal]
      · simp only [Except.map, strip_setBal]

theorem strip_take : ∀ t : Node K R, (takeRightMost t).map (fun p => (p.1.key, strip p.2.1, p.2.2)) = (strip t).takeRightMost
  | .nil => rfl
  | .node l b i r => by
    have ih := strip_take r
    rw [takeRightMost, strip, Tree.takeRightMost, strip_isNil, ← ih]
    split
    · rfl
    · cases takeRightMost r with
      | error e => rfl
      | ok p =>
        obtain ⟨rm, r', done⟩ := p
        show Except.map _ (match balanceAfterRemove (.node l b i r') done true with | .error e => .error e | .ok (t, done) => .ok (rm, t, done)) =
          match (strip (.node l b i r')).balanceAfterRemove done true with | .error e => .error e | .ok (t, done) => .ok (rm.key, t, done)
        rw [← strip_bar]
        cases balanceAfterRemove (.node l b i r') done true with
        | error e => rfl
        | ok p => rfl

theorem strip_root (t : Node K R) : (removeRootNode t).map (fun p => (strip p.1, p.2)) = (strip t).removeRootNode := by
  unfold removeRootNode Tree.removeRootNode
  simp only [← strip_link, strip_isNil, ← strip_take]
  split
  · rfl
  · cases takeRightMost (t.link false) with
    | error e => rfl
    | ok p =>
      obtain ⟨rm, nr, done⟩ := p
      show (balanceAfterRemove (mark (.node nr t.bal rm (t.link true))) done false).map (fun p => (strip p.1, p.2)) = _
      rw [strip_bar, strip_mark, strip, strip_bal]; rfl

def sO : Option (Node K R × Bool) → Option (Tree K × Bool)
  | none => none
  | some p => some (strip p.1, p.2)

def sR (p : Node K R × Bool × Option (Item K R)) : Tree K × Bool × Option K := (strip p.1, p.2.1, p.2.2.map Item.key)

theorem strip_insert [Inhabited R] (lt : K → K → Bool) (x : K) : ∀ t : Node K R, (insert lt x t).map sO = (strip t).insert lt x
  | .nil => rfl
  | .node l b i r => by
    have key : ∀ (d : Bool) (res : Except Err (Option (Node K R × Bool))),
        (match res with
        | .error e => (.error e : Except Err (Option (Node K R × Bool)))
        | .ok none => .ok none
        | .ok (some (nd, done)) =>
          let this := mark ((Tree.node l b i r).setLink d nd)
          if done then .ok (some (this, true))
          else
            let this := this.setBal (b + Tree.side d)
            if this.bal = 0 then .ok (some (this, true))
            else if this.bal < -1 ∨ this.bal > 1 then
              (insertBalance d this).map (fun t => some (t, true))
            else .ok (some (this, false))).map sO =
        match res.map sO with
        | .error e => .error e
        | .ok none => .ok none
        | .ok (some (nd, done)) =>
          let this := (Tree.node (strip l) b i.key (strip r)).setLink d nd
          if done then .ok (some (this, true))
          else
            let this := this.setBal (b + Tree.side d)
            if this.bal = 0 then .ok (some (this, true))
            else if this.bal < -1 ∨ this.bal > 1 then
              (this.insertBalance d).map (fun t => some (t, true))
            else .ok (some (this, false)) := by
      intro d res
      cases res with
      | error e => rfl
      | ok o =>
        cases o with
        | none => rfl
        | some p =>
          obtain ⟨nd, done⟩ := p
          have e1 : strip (mark ((Tree.node l b i r).setLink d nd)) = (Tree.node (strip l) b i.key (strip r)).setLink d (strip nd) := by
            rw [strip_mark, strip_setLink]; rfl
          show Except.map _ (if done then .ok (some (mark ((Tree.node l b i r).setLink d nd), true))
            else if ((mark ((Tree.node l b i r).setLink d nd)).setBal (b + Tree.side d)).bal = 0 then .ok (some ((mark ((Tree.node l b i r).setLink d nd)).setBal (b + Tree.side d), true))
            else if ((mark ((Tree.node l b i r).setLink d nd)).setBal (b + Tree.side d)).bal < -1 ∨ ((mark ((Tree.node l b i r).setLink d nd)).setBal (b + Tree.side d)).bal > 1 then
              (insertBalance d ((mark ((Tree.node l b i r).setLink d nd)).setBal (b + Tree.side d))).map (fun t => some (t, true))
            else .ok (some ((mark ((Tree.node l b i r).setLink d nd)).setBal (b + Tree.side d), false))) =
            if done then .ok (some ((Tree.node (strip l) b i.key (strip r)).setLink d (strip nd), true))
            else if (((Tree.node (strip l) b i.key (strip r)).setLink d (strip nd)).setBal (b + Tree.side d)).bal = 0 then .ok (some (((Tree.node (strip l) b i.key (strip r)).setLink d (strip nd)).setBal (b + Tree.side d), true))
            else if (((Tree.node (strip l) b i.key (strip r)).setLink d (strip nd)).setBal (b + Tree.side d)).bal < -1 ∨ (((Tree.node (strip l) b i.key (strip r)).setLink d (strip nd)).setBal (b + Tree.side d)).bal > 1 then
              ((((Tree.node (strip l) b i.key (strip r)).setLink d (strip nd)).setBal (b + Tree.side d)).insertBalance d).map (fun t => some (t, true))
            else .ok (some (((Tree.node (strip l) b i.key (strip r)).setLink d (strip nd)).setBal (b + Tree.side d), false))
          rw [← e1, ← strip_setBal, strip_bal, ← strip_insertBalance]
          generalize hz : (mark ((Tree.node l b i r).setLink d nd)).setBal (b + Tree.side d) = z
          cases done
          · simp only [Bool.false_eq_true, if_false]
            by_cases c1 : z.bal = 0
            · rw [if_pos c1, if_pos c1]; rfl
            · rw [if_neg c1, if_neg c1]
              by_cases c2 : z.bal < -1 ∨ z.bal > 1
              · rw [if_pos c2, if_pos c2]
                cases insertBalance d z <;> rfl
              · rw [if_neg c2, if_neg c2]; rfl
          · rfl
    rw [insert, strip, Tree.insert]
    simp only
    split
    · refine (key false (insert lt x l)).trans ?_
      rw [strip_insert lt x l]
      rcases Tree.insert lt x (strip l) with _ | _ | ⟨_, _⟩ <;> rfl
    · split
      · refine (key true (insert lt x r)).trans ?_
        rw [strip_insert lt x r]
        rcases Tree.insert lt x (strip r) with _ | _ | ⟨_, _⟩ <;> rfl
      · rfl

theorem strip_remove (lt : K → K → Bool) (x : K) : ∀ t : Node K R, (remove lt x t).map sR = (strip t).remove lt x
  | .nil => rfl
  | .node l b i r => by
    have key : ∀ (d : Bool) (res : Except Err (Node K R × Bool × Option (Item K R))),
        (match res with
        | .error e => (.error e : Except Err (Node K R × Bool × Option (Item K R)))
        | .ok (t, done, rm) =>
          match balanceAfterRemove (mark ((Tree.node l b i r).setLink d t)) done d with
          | .error e => .error e
          | .ok (t, done) => .ok (t, done, rm)).map sR =
        match res.map sR with
        | .error e => .error e
        | .ok (t, done, rm) =>
          match ((Tree.node (strip l) b i.key (strip r)).setLink d t).balanceAfterRemove done d with
          | .error e => .error e
          | .ok (t, done) => .ok (t, done, rm) := by
      intro d res
      cases res with
      | error e => rfl
      | ok o =>
        obtain ⟨t, done, rm⟩ := o
        have e1 : strip (mark ((Tree.node l b i r).setLink d t)) = (Tree.node (strip l) b i.key (strip r)).setLink d (strip t) := by
          rw [strip_mark, strip_setLink]; rfl
        simp only [Except.map, sR]
        rw [← e1, ← strip_bar]
        cases balanceAfterRemove (mark ((Tree.node l b i r).setLink d t)) done d with
        | error e => rfl
        | ok p => rfl
    rw [remove, strip, Tree.remove]
    simp only
    split
    · refine (key false (remove lt x l)).trans ?_
      rw [strip_remove lt x l]
      rcases Tree.remove lt x (strip l) with _ | ⟨_, _, _⟩ <;> rfl
    · split
      · refine (key true (remove lt x r)).trans ?_
        rw [strip_remove lt x r]
        rcases Tree.remove lt x (strip r) with _ | ⟨_, _, _⟩ <;> rfl
      · have := strip_root (.node l b i r)
        rw [strip] at this
        rw [← this]
        cases removeRootNode (.node l b i r) with
        | error e => rfl
        | ok p => rfl

theorem strip_update (f : K → R) (add : R → R → R) : ∀ t : Node K R, strip (updateNode f add t) = strip t
  | .nil => rfl
  | .node l b i r => by
    rw [updateNode]
    split
    · rw [strip, strip, strip_update f add l, strip_update f add r]
    · rfl

/-! ## The invariant -/

def oadd (add : R → R → R) : Option R → Option R → Option R
  | none, y => y
  | x, none => x
  | some x, some y => some (add x y)

/-- Combined result of a tree. -/
def vt (f : K → R) (add : R → R → R) : Tree K → Option R
  | .nil => none
  | .node l _ k r => oadd add (oadd add (vt f add l) (some (f k))) (vt f add r)

variable {f : K → R} {add : R → R → R}

theorem oadd_assoc (hA : ∀ a b c, add (add a b) c = add a (add b c)) (x y z : Option R) : oadd add (oadd add x y) z = oadd add x (oadd add y z) := by
  cases x <;> cases y <;> cases z <;> simp [oadd, hA]

def tot (add : R → R → R) : List R → Option R
  | [] => none
  | x :: xs => oadd add (some x) (tot add xs)

theorem tot_append (hA : ∀ a b c, add (add a b) c = add a (add b c)) : ∀ a b : List R, tot add (a ++ b) = oadd add (tot add a) (tot add b)
  | [], b => rfl
  | x :: a, b => by rw [List.cons_append, tot, tot, tot_append hA a b, oadd_assoc hA]

theorem tot_foldl (hA : ∀ a b c, add (add a b) c = add a (add b c)) : ∀ (xs : List R) (x : R), tot add (x :: xs) = some (xs.foldl add x)
  | [], x => rfl
  | y :: xs, x => by
    have := tot_foldl hA xs (add x y)
    rw [List.foldl_cons, ← this]
    rw [tot, tot, tot, ← oadd_assoc hA]; rfl

theorem vt_tot (hA : ∀ a b c, add (add a b) c = add a (add b c)) : ∀ t : Tree K, vt f add t = tot add (t.toList.map f)
  | .nil => rfl
  | .node l b k r => by
    rw [vt, Tree.toList, List.map_append, List.map_cons, tot_append hA, tot, ← vt_tot hA l, ← vt_tot hA r, oadd_assoc hA]

theorem vt_total [Inhabited R] (hA : ∀ a b c, add (add a b) c = add a (add b c)) (t : Tree K) : (vt f add t).getD default = total add (t.toList.map f) := by
  rw [vt_tot hA]
  cases t.toList.map f with
  | nil => rfl
  | cons x xs => rw [tot_foldl hA]; rfl

/-- A node that is not dirty holds the result of its subtree. -/
def Ok (f : K → R) (add : R → R → R) : Node K R → Prop
  | .nil => True
  | .node l b i r => Ok f add l ∧ Ok f add r ∧ (i.dirty = false → some i.res = vt f add (strip (.node l b i r)))

def AllDirty : Node K R → Prop
  | .nil => True
  | .node l _ i r => AllDirty l ∧ AllDirty r ∧ i.dirty = true

theorem AllDirty.ok : ∀ {t : Node K R}, AllDirty t → Ok f add t
  | .nil, _ => trivial
  | .node _ _ _ _, ⟨h1, h2, h3⟩ => ⟨h1.ok, h2.ok, fun q => by rw [h3] at q; cases q⟩

/-- The root is dirty. -/
def Dirty : Node K R → Prop
  | .nil => True
  | .node _ _ i _ => i.dirty = true

theorem dirty_mark (t : Node K R) : Dirty (mark t) := by cases t <;> simp [mark, Dirty]

theorem ok_dirty {l r : Node K R} {b : Int} {i : Item K R} (h1 : Ok f add l) (h2 : Ok f add r) (h3 : i.dirty = true) : Ok f add (.node l b i r) :=
  ⟨h1, h2, fun q => by rw [h3] at q; cases q⟩

theorem ok_link (d : Bool) {t : Node K R} (h : Ok f add t) : Ok f add (t.link d) := by
  cases t with
  | nil => cases d <;> trivial
  | node l b i r => cases d <;> first | exact h.1 | exact h.2.1

/-- A link of a dirty node may be replaced. -/
theorem ok_set {d : Bool} {t v : Node K R} (h : Ok f add t) (hd : Dirty t) (hv : Ok f add v) : Ok f add (t.setLink d v) ∧ Dirty (t.setLink d v) := by
  cases t with
  | nil => exact ⟨trivial, trivial⟩
  | node l b i r =>
    cases d
    · exact ⟨ok_dirty hv h.2.1 hd, hd⟩
    · exact ⟨ok_dirty h.1 hv hd, hd⟩

theorem ok_mark {t : Node K R} (h : Ok f add t) : Ok f add (mark t) := by
  cases t with
  | nil => trivial
  | node l b i r => exact ok_dirty h.1 h.2.1 rfl

theorem vt_bal (b b' : Int) (l r : Tree K) (k : K) : vt f add (.node l b k r) = vt f add (.node l b' k r) := rfl

theorem ok_bal (b : Int) {t : Node K R} (h : Ok f add t) : Ok f add (t.setBal b) := by
  cases t with
  | nil => trivial
  | node l b' i r => exact ⟨h.1, h.2.1, h.2.2⟩

theorem dirty_bal (b : Int) {t : Node K R} (h : Dirty t) : Dirty (t.setBal b) := by cases t <;> exact h

theorem ok_rotateSingle {d : Bool} {t t' : Node K R} (h : Ok f add t) (e : rotateSingle d t = .ok t') : Ok f add t' ∧ Dirty t' := by
  unfold rotateSingle at e
  simp only at e
  split at e
  · cases e
  · cases e
    have h1 := ok_link (!d) h
    exact ok_set (ok_mark h1) (dirty_mark _) (ok_set (ok_mark h) (dirty_mark _) (ok_link d h1)).1

theorem ok_rotateDouble {d : Bool} {t t' : Node K R} (h : Ok f add t) (hd : Dirty (t.link (!d))) (e : rotateDouble d t = .ok t') : Ok f add t' ∧ Dirty t' := by
  unfold rotateDouble at e
  simp only at e
  split at e
  · cases e
  · split at e
    · cases e
    · cases e
      have h1 := ok_link (!d) h
      have h2 := ok_link d h1
      have h3 := ok_set (d := d) h1 hd (ok_link (!d) h2)
      have h4 := ok_set (d := !d) (ok_mark h2) (dirty_mark _) h3.1
      have e2 : ∀ (s v : Node K R), mark (s.setLink (!d) v) = (mark s).setLink (!d) v := fun s v => by cases s <;> cases d <;> rfl
      rw [e2]
      exact ok_set h4.1 h4.2 (ok_set (ok_mark h) (dirty_mark _) (ok_link d h4.1)).1

theorem ok_adjust {d : Bool} {b : Int} {t t' : Node K R} (h : Ok f add t) (hd : Dirty t) (hn : Dirty (t.link d)) (e : t.adjustBalance d b = .ok t') :
    Ok f add t' ∧ Dirty (t'.link d) := by
  unfold Tree.adjustBalance at e
  simp only at e
  split at e
  · cases e
  · split at e
    · cases e
    · cases e
      have h1 := ok_link d h
      have h2 := ok_link (!d) h1
      generalize hx : (if (t.link d |>.link !d).bal = 0 then ((0 : Int), (0 : Int)) else if (t.link d |>.link !d).bal = b then (-b, 0) else (0, b)) = x
      have h3 := ok_set (d := !d) (ok_bal x.2 h1) (dirty_bal x.2 hn) (ok_bal 0 h2)
      refine ⟨(ok_set (ok_bal _ h) (dirty_bal _ hd) h3.1).1, ?_⟩
      cases t with
      | nil => cases d <;> trivial
      | node l b' i r => cases d <;> exact h3.2

theorem ok_insertBalance {d : Bool} {t t' : Node K R} (h : Ok f add t) (hd : Dirty t) (hn : Dirty (t.link d)) (e : insertBalance d t = .ok t') : Ok f add t' ∧ Dirty t' := by
  unfold insertBalance at e
  simp only at e
  split at e
  · cases e
  · split at e
    · exact ok_rotateSingle (ok_set (ok_bal 0 h) (dirty_bal 0 hd) (ok_bal 0 (ok_link d h))).1 e
    · split at e
      · cases e
      · rename_i y hy
        obtain ⟨i1, i2⟩ := ok_adjust h hd hn hy
        exact ok_rotateDouble i1 (by simpa using i2) e

theorem ok_insert [Inhabited R] (lt : K → K → Bool) (x : K) : ∀ {t : Node K R} {t' : Node K R} {done : Bool}, Ok f add t → insert lt x t = .ok (some (t', done)) → Ok f add t' ∧ Dirty t'
  | .nil, t', done, _, e => by
    cases e; exact ⟨ok_dirty trivial trivial rfl, rfl⟩
  | .node l b i r, t', done, h, e => by
    have key : ∀ (d : Bool) (nd : Node K R) (done' : Bool), Ok f add nd → Dirty nd →
        (let this := mark ((Tree.node l b i r).setLink d nd)
          if done' then .ok (some (this, true))
          else
            let this := this.setBal (b + Tree.side d)
            if this.bal = 0 then .ok (some (this, true))
            else if this.bal < -1 ∨ this.bal > 1 then
              (insertBalance d this).map (fun t => some (t, true))
            else (.ok (some (this, false)) : Except Err (Option (Node K R × Bool)))) = .ok (some (t', done)) → Ok f add t' ∧ Dirty t' := by
      intro d nd done' hn hdn e
      have h1 : Ok f add (mark ((Tree.node l b i r).setLink d nd)) ∧ Dirty (mark ((Tree.node l b i r).setLink d nd)) := by
        cases d
        · exact ⟨ok_dirty hn h.2.1 rfl, rfl⟩
        · exact ⟨ok_dirty h.1 hn rfl, rfl⟩
      have h2 : (mark ((Tree.node l b i r).setLink d nd)).link d = nd := by cases d <;> rfl
      generalize mark ((Tree.node l b i r).setLink d nd) = this at e h1 h2
      simp only at e
      split at e
      · cases e; exact h1
      · split at e
        · cases e; exact ⟨ok_bal _ h1.1, dirty_bal _ h1.2⟩
        · split at e
          · obtain ⟨z, hz, hz2⟩ := Tree.map_ok e
            cases hz2
            refine ok_insertBalance (ok_bal _ h1.1) (dirty_bal _ h1.2) ?_ hz
            have : (this.setBal (b + Tree.side d)).link d = nd := by
              rw [← h2]; cases this <;> cases d <;> rfl
            rw [this]; exact hdn
          · cases e; exact ⟨ok_bal _ h1.1, dirty_bal _ h1.2⟩
    rw [insert] at e
    simp only at e
    split at e
    · split at e
      · cases e
      · cases e
      · rename_i nd done' hh
        obtain ⟨i1, i2⟩ := ok_insert lt x h.1 hh
        exact key false nd done' i1 i2 e
    · split at e
      · split at e
        · cases e
        · cases e
        · rename_i nd done' hh
          obtain ⟨i1, i2⟩ := ok_insert lt x h.2.1 hh
          exact key true nd done' i1 i2 e
      · cases e

theorem root_res {t : Node K R} (h : Ok f add t) : ∀ {l b i r}, t = .node l b i r → i.dirty = false → vt f add (strip t) = some i.res := by
  rintro l b i r rfl hd
  exact (h.2.2 hd).symm

theorem ok_update : ∀ {t : Node K R}, Ok f add t → Ok f add (updateNode f add t) ∧ ∀ {l b i r}, updateNode f add t = .node l b i r → i.dirty = false
  | .nil, _ => ⟨trivial, by intro _ _ _ _ e; cases e⟩
  | .node l b i r, h => by
    rw [updateNode]
    by_cases hd : i.dirty = true
    · rw [if_pos hd]
      obtain ⟨l1, l2⟩ := ok_update h.1
      obtain ⟨r1, r2⟩ := ok_update h.2.1
      have sl := strip_update f add l
      have sr := strip_update f add r
      simp only
      refine ⟨⟨l1, r1, fun _ => ?_⟩, by intro _ _ _ _ e; cases e; rfl⟩
      generalize updateNode f add l = l' at *
      generalize updateNode f add r = r' at *
      cases l' with
      | nil =>
        cases r' with
        | nil => rfl
        | node rl rb ri rr =>
          have := root_res r1 rfl (r2 rfl)
          rw [strip, vt, this]; rfl
      | node ll lb li lr =>
        have e1 := root_res l1 rfl (l2 rfl)
        cases r' with
        | nil => rw [strip, vt, e1]; rfl
        | node rl rb ri rr =>
          have := root_res r1 rfl (r2 rfl)
          rw [strip, vt, e1, this]; rfl
    · rw [if_neg hd]
      refine ⟨h, ?_⟩
      intro _ _ _ _ e
      cases e
      simpa using hd

/-! ### Trees with dirty nodes only -/

theorem ad_link (d : Bool) {t : Node K R} (h : AllDirty t) : AllDirty (t.link d) := by
  cases t with
  | nil => cases d <;> trivial
  | node l b i r => cases d <;> first | exact h.1 | exact h.2.1

theorem ad_set {d : Bool} {t v : Node K R} (h : AllDirty t) (hv : AllDirty v) : AllDirty (t.setLink d v) := by
  cases t with
  | nil => exact trivial
  | node l b i r => cases d <;> first | exact ⟨hv, h.2.1, h.2.2⟩ | exact ⟨h.1, hv, h.2.2⟩

theorem ad_mark {t : Node K R} (h : AllDirty t) : AllDirty (mark t) := by
  cases t with
  | nil => trivial
  | node l b i r => exact ⟨h.1, h.2.1, rfl⟩

theorem ad_bal (b : Int) {t : Node K R} (h : AllDirty t) : AllDirty (t.setBal b) := by
  cases t <;> exact h

theorem ad_rotateSingle {d : Bool} {t t' : Node K R} (h : AllDirty t) (e : rotateSingle d t = .ok t') : AllDirty t' := by
  unfold rotateSingle at e
  simp only at e
  split at e
  · cases e
  · cases e
    have h1 := ad_link (!d) h
    exact ad_set (ad_mark h1) (ad_set (ad_mark h) (ad_link d h1))

theorem ad_rotateDouble {d : Bool} {t t' : Node K R} (h : AllDirty t) (e : rotateDouble d t = .ok t') : AllDirty t' := by
  unfold rotateDouble at e
  simp only at e
  split at e
  · cases e
  · split at e
    · cases e
    · cases e
      have h1 := ad_link (!d) h
      have h2 := ad_link d h1
      have h4 := ad_mark (ad_set (d := !d) h2 (ad_set (d := d) h1 (ad_link (!d) h2)))
      exact ad_set h4 (ad_set (ad_mark h) (ad_link d h4))

theorem ad_adjust {d : Bool} {b : Int} {t t' : Node K R} (h : AllDirty t) (e : t.adjustBalance d b = .ok t') : AllDirty t' := by
  unfold Tree.adjustBalance at e
  simp only at e
  split at e
  · cases e
  · split at e
    · cases e
    · cases e
      exact ad_set (ad_bal _ h) (ad_set (ad_bal _ (ad_link d h)) (ad_bal _ (ad_link (!d) (ad_link d h))))

theorem ad_insertBalance {d : Bool} {t t' : Node K R} (h : AllDirty t) (e : insertBalance d t = .ok t') : AllDirty t' := by
  unfold insertBalance at e
  simp only at e
  split at e
  · cases e
  · split at e
    · exact ad_rotateSingle (ad_set (ad_bal 0 h) (ad_bal 0 (ad_link d h))) e
    · split at e
      · cases e
      · rename_i y hy
        exact ad_rotateDouble (ad_adjust h hy) e

theorem ad_removeBalance {d : Bool} {t : Node K R} {p} (h : AllDirty t) (e : removeBalance d t = .ok p) : AllDirty p.1 := by
  unfold removeBalance at e
  simp only at e
  split at e
  · cases e
  · split at e
    · obtain ⟨z, hz, rfl⟩ := Tree.map_ok e
      exact ad_rotateSingle (ad_set (ad_bal 0 h) (ad_bal 0 (ad_link _ h))) hz
    · split at e
      · split at e
        · cases e
        · rename_i y hy
          obtain ⟨z, hz, rfl⟩ := Tree.map_ok e
          exact ad_rotateDouble (ad_adjust h hy) hz
      · obtain ⟨z, hz, rfl⟩ := Tree.map_ok e
        exact ad_rotateSingle (ad_set (ad_bal _ h) (ad_bal _ (ad_link _ h))) hz

theorem ad_bar {t : Node K R} {done d : Bool} {p} (h : AllDirty t) (e : balanceAfterRemove t done d = .ok p) : AllDirty p.1 := by
  unfold balanceAfterRemove at e
  simp only at e
  split at e
  · cases e; exact h
  · split at e
    · cases e; exact ad_bal _ h
    · split at e
      · exact ad_removeBalance (ad_bal _ h) e
      · cases e; exact ad_bal _ h

theorem ad_take : ∀ {t : Node K R} {p}, AllDirty t → takeRightMost t = .ok p → AllDirty p.2.1
  | .nil, p, _, e => by cases e
  | .node l b i r, p, h, e => by
    rw [takeRightMost] at e
    split at e
    · cases e; exact h.1
    · split at e
      · cases e
      · rename_i rm r' done hh
        have ih := ad_take h.2.1 hh
        split at e
        · cases e
        · rename_i t done' h2
          cases e
          exact ad_bar (t := .node l b i r') ⟨h.1, ih, h.2.2⟩ h2

theorem ad_root {t : Node K R} {p} (h : AllDirty t) (e : removeRootNode t = .ok p) : AllDirty p.1 := by
  unfold removeRootNode at e
  split at e
  · cases e; exact ad_link _ h
  · split at e
    · cases e
    · rename_i rm nr done hh
      exact ad_bar (t := mark (.node nr t.bal rm (t.link true))) ⟨ad_take (ad_link _ h) hh, ad_link _ h, rfl⟩ e

theorem ad_insert [Inhabited R] (lt : K → K → Bool) (x : K) : ∀ {t : Node K R} {t' : Node K R} {done : Bool}, AllDirty t → insert lt x t = .ok (some (t', done)) → AllDirty t'
  | .nil, t', done, _, e => by
    cases e; exact ⟨trivial, trivial, rfl⟩
  | .node l b i r, t', done, h, e => by
    have key : ∀ (d : Bool) (nd : Node K R) (done' : Bool), AllDirty nd →
        (let this := mark ((Tree.node l b i r).setLink d nd)
          if done' then .ok (some (this, true))
          else
            let this := this.setBal (b + Tree.side d)
            if this.bal = 0 then .ok (some (this, true))
            else if this.bal < -1 ∨ this.bal > 1 then
              (insertBalance d this).map (fun t => some (t, true))
            else (.ok (some (this, false)) : Except Err (Option (Node K R × Bool)))) = .ok (some (t', done)) → AllDirty t' := by
      intro d nd done' hn e
      have h1 : AllDirty (mark ((Tree.node l b i r).setLink d nd)) := ad_mark (ad_set h hn)
      generalize mark ((Tree.node l b i r).setLink d nd) = this at e h1
      simp only at e
      split at e
      · cases e; exact h1
      · split at e
        · cases e; exact ad_bal _ h1
        · split at e
          · obtain ⟨z, hz, hz2⟩ := Tree.map_ok e
            cases hz2
            exact ad_insertBalance (ad_bal _ h1) hz
          · cases e; exact ad_bal _ h1
    rw [insert] at e
    simp only at e
    split at e
    · split at e
      · cases e
      · cases e
      · rename_i nd done' hh
        exact key false nd done' (ad_insert lt x h.1 hh) e
    · split at e
      · split at e
        · cases e
        · cases e
        · rename_i nd done' hh
          exact key true nd done' (ad_insert lt x h.2.1 hh) e
      · cases e

theorem ad_remove (lt : K → K → Bool) (x : K) : ∀ {t : Node K R} {p}, AllDirty t → remove lt x t = .ok p → AllDirty p.1
  | .nil, p, _, e => by cases e; trivial
  | .node l b i r, p, h, e => by
    rw [remove] at e
    simp only at e
    split at e
    · split at e
      · cases e
      · rename_i t done rm hh
        split at e
        · cases e
        · rename_i t' done' h2
          cases e
          exact ad_bar (p := (t', done')) (ad_mark (ad_set h (ad_remove lt x h.1 hh))) h2
    · split at e
      · split at e
        · cases e
        · rename_i t done rm hh
          split at e
          · cases e
          · rename_i t' done' h2
            cases e
            exact ad_bar (p := (t', done')) (ad_mark (ad_set h (ad_remove lt x h.2.1 hh))) h2
      · split at e
        · cases e
        · rename_i t done hh
          cases e
          exact ad_root (p := (t, done)) h hh

/-! ## Runs -/

def stripM (m : M K R) : Avl.St K := ⟨strip m.tree, m.count⟩

/-- `insert` and `erase` are those of the tree without flags. -/
theorem insert_rel [Inhabited R] {lt : K → K → Bool} (W : StrictWeak lt) {m : M K R} {l : List K} (h : Rel lt (stripM m) l) (x : K) :
    ∃ m' e l', m.insert lt x = .ok (m', e) ∧ Rel lt (stripM m') l' ∧ ((e = true ↔ ∃ y ∈ l, lt x y = false ∧ lt y x = false) ∧ l' = if e then l else x :: l) ∧
      (m'.tree = m.tree ∨ ∃ d, insert lt x m.tree = .ok (some (m'.tree, d))) := by
  obtain ⟨s', out, l', e1, e2, e3⟩ := c18_step W h (.insert x)
  have e4 := strip_insert lt x m.tree
  change (St.insertNode lt (stripM m) x (some true)).map _ = _ at e1
  unfold St.insertNode at e1
  rw [show (stripM m).tree = strip m.tree from rfl, ← e4] at e1
  cases hi : insert lt x m.tree with
  | error e => rw [hi] at e1; cases e1
  | ok o =>
    rw [hi] at e1
    cases o with
    | none =>
      cases e1
      exact ⟨m, true, l', by unfold M.insert; rw [hi], e3, e2, .inl rfl⟩
    | some p =>
      obtain ⟨t, d⟩ := p
      cases e1
      exact ⟨⟨t, m.count + 1⟩, false, l', by unfold M.insert; rw [hi], e3, e2, .inr ⟨d, rfl⟩⟩

theorem erase_rel {lt : K → K → Bool} (W : StrictWeak lt) {m : M K R} {l : List K} (h : Rel lt (stripM m) l) (x : K) :
    ∃ m' e l', m.erase lt x = .ok (m', e) ∧ Rel lt (stripM m') l' ∧ ((e = true ↔ ∃ y ∈ l, lt x y = false ∧ lt y x = false) ∧ l' = l.filter (fun y => lt x y || lt y x)) ∧
      ∃ p, remove lt x m.tree = .ok p ∧ p.1 = m'.tree := by
  obtain ⟨s', out, l', e1, e2, e3⟩ := c18_step W h (.erase x)
  have e4 := strip_remove lt x m.tree
  change (St.erase lt (stripM m) x).map _ = _ at e1
  unfold St.erase at e1
  rw [show (stripM m).tree = strip m.tree from rfl, ← e4] at e1
  cases hi : remove lt x m.tree with
  | error e => rw [hi] at e1; cases e1
  | ok o =>
    rw [hi] at e1
    obtain ⟨t, d, rm⟩ := o
    cases rm with
    | none =>
      cases e1
      exact ⟨{ m with tree := t }, false, l', by unfold M.erase; rw [hi]; rfl, e3, e2, _, rfl, rfl⟩
    | some k =>
      cases e1
      exact ⟨⟨t, m.count - 1⟩, true, l', by unfold M.erase; rw [hi]; rfl, e3, e2, _, rfl, rfl⟩

theorem reduce_rel [Inhabited R] (f : K → R) (add : R → R → R) (m : M K R) : stripM (m.reduce f add).1 = stripM m := by
  have := strip_update f add m.tree
  unfold M.reduce
  simp only
  generalize updateNode f add m.tree = t at *
  cases t with
  | nil => rfl
  | node l b i r => unfold stripM; rw [this]

/-- C121, the part about the set: whatever is called, nothing fails, and insertions and erasures give what they should. -/
theorem C121_set [Inhabited R] {lt : K → K → Bool} (W : StrictWeak lt) (f : K → R) (add : R → R → R) :
    ∀ (ops : List (Op K)) (m : M K R) (l : List K), Rel lt (stripM m) l → ∃ m' outs, M.run lt f add m ops = .ok (m', outs) ∧ SpecRun lt (fun _ _ => True) l ops outs
  | [], m, l, _ => ⟨m, [], rfl, trivial⟩
  | op :: ops, m, l, h => by
    have step : ∃ m1 o l', m.apply lt f add op = .ok (m1, o) ∧ SpecStep lt (fun _ _ => True) l op o l' ∧ Rel lt (stripM m1) l' := by
      cases op with
      | insert x =>
        obtain ⟨m', e, l', h1, h2, h3, _⟩ := insert_rel W h x
        exact ⟨m', .flag e, l', by rw [M.apply, h1]; rfl, h3, h2⟩
      | erase x =>
        obtain ⟨m', e, l', h1, h2, h3, _⟩ := erase_rel W h x
        exact ⟨m', .flag e, l', by rw [M.apply, h1]; rfl, h3, h2⟩
      | clear => exact ⟨{}, .unit, [], rfl, rfl, ⟨by simp [stripM, strip, Tree.toList], by simp [stripM, strip, Tree.toList, Sorted], trivial, rfl⟩⟩
      | reduce => exact ⟨_, _, l, rfl, ⟨trivial, rfl⟩, by rw [reduce_rel]; exact h⟩
    obtain ⟨m1, o, l', e1, e2, e3⟩ := step
    obtain ⟨m2, os, e4, e5⟩ := C121_set W f add ops m1 l' e3
    exact ⟨m2, o :: os, by rw [M.run, e1]; simp only; rw [e4], l', e2, e5⟩

/-- No item is erased after a `reduce` (until `clear`). -/
def calm : Bool → List (Op K) → Prop
  | _, [] => True
  | s, .insert _ :: ops => calm s ops
  | s, .erase _ :: ops => s = false ∧ calm s ops
  | _, .clear :: ops => calm false ops
  | _, .reduce :: ops => calm true ops

theorem reduce_ok [Inhabited R] (hA : ∀ a b c, add (add a b) c = add a (add b c)) {m : M K R} (h : Ok f add m.tree) :
    Ok f add (m.reduce f add).1.tree ∧ (m.reduce f add).2 = total add ((strip m.tree).toList.map f) := by
  have hs := strip_update f add m.tree
  obtain ⟨h1, h2⟩ := ok_update h
  rw [← vt_total hA, ← hs]
  unfold M.reduce
  simp only
  generalize updateNode f add m.tree = t at *
  cases t with
  | nil => exact ⟨h, rfl⟩
  | node l b i r =>
    refine ⟨h1, ?_⟩
    rw [root_res h1 rfl (h2 rfl)]; rfl

theorem run_ok [Inhabited R] {lt : K → K → Bool} (W : StrictWeak lt) (hA : ∀ a b c, add (add a b) c = add a (add b c)) :
    ∀ (ops : List (Op K)) (s : Bool) (m : M K R) (l : List K), calm s ops → Rel lt (stripM m) l → Ok f add m.tree → (s = false → AllDirty m.tree) →
      ∃ m' outs, M.run lt f add m ops = .ok (m', outs) ∧ SpecRun lt (Reduced lt f add) l ops outs
  | [], _, m, l, _, _, _, _ => ⟨m, [], rfl, trivial⟩
  | op :: ops, s, m, l, hc, h, hok, hd => by
    have step : ∃ m1 o l' s', calm s' ops ∧ m.apply lt f add op = .ok (m1, o) ∧ SpecStep lt (Reduced lt f add) l op o l' ∧ Rel lt (stripM m1) l' ∧ Ok f add m1.tree ∧ (s' = false → AllDirty m1.tree) := by
      cases op with
      | insert x =>
        obtain ⟨m', e, l', h1, h2, h3, h4⟩ := insert_rel W h x
        refine ⟨m', .flag e, l', s, hc, by rw [M.apply, h1]; rfl, h3, h2, ?_⟩
        rcases h4 with h4 | ⟨d, h4⟩
        · rw [h4]; exact ⟨hok, hd⟩
        · exact ⟨(ok_insert lt x hok h4).1, fun q => ad_insert lt x (hd q) h4⟩
      | erase x =>
        obtain ⟨m', e, l', h1, h2, h3, p, h4, h5⟩ := erase_rel W h x
        have h6 := ad_remove lt x (hd hc.1) h4
        rw [h5] at h6
        exact ⟨m', .flag e, l', s, hc.2, by rw [M.apply, h1]; rfl, h3, h2, h6.ok, fun _ => h6⟩
      | clear => exact ⟨{}, .unit, [], false, hc, rfl, rfl, ⟨by simp [stripM, strip, Tree.toList], by simp [stripM, strip, Tree.toList, Sorted], trivial, rfl⟩, trivial, fun _ => trivial⟩
      | reduce =>
        obtain ⟨h1, h2⟩ := reduce_ok hA hok
        exact ⟨_, _, l, true, hc, rfl, ⟨⟨(strip m.tree).toList, h.perm, h.sorted, h2⟩, rfl⟩, by rw [reduce_rel]; exact h, h1, fun q => by cases q⟩
    obtain ⟨m1, o, l', s', e0, e1, e2, e3, e6, e7⟩ := step
    obtain ⟨m2, os, e4, e5⟩ := run_ok W hA ops s' m1 l' e0 e3 e6 e7
    exact ⟨m2, o :: os, by rw [M.run, e1]; simp only; rw [e4], l', e2, e5⟩

/-- C121 for sequences without an erasure after a `reduce`. -/
theorem C121_reduce_partial [Inhabited R] {lt : K → K → Bool} (W : StrictWeak lt) (hA : ∀ a b c, add (add a b) c = add a (add b c)) {ops : List (Op K)} (h : calm false ops) :
    ∃ m outs, M.run lt f add {} ops = .ok (m, outs) ∧ SpecRun lt (Reduced lt f add) [] ops outs :=
  run_ok W hA ops false {} [] h ⟨by simp [stripM, strip, Tree.toList], by simp [stripM, strip, Tree.toList, Sorted], trivial, rfl⟩ trivial fun _ => trivial

/-- Outputs only. -/
def outs {A B : Type} : Except Err (A × List B) → Option (List B)
  | .ok p => some p.2
  | .error _ => none

/-- Concrete case: concatenation of texts. -/
example : outs (M.run (R := List Nat) (fun a b : Nat => decide (a < b)) (fun k => [k]) (· ++ ·) {} [.insert 5, .insert 9, .erase 5, .insert 3, .insert 4, .reduce, .insert 7, .insert 1, .insert 2, .reduce]) =
    some [.flag false, .flag false, .flag true, .flag false, .flag false, .value [3, 4, 9], .flag false, .flag false, .flag false, .value [1, 2, 3, 4, 7, 9]] := by decide

/-- Items 4 2 5 1 3, `reduce`, 4 erased: 3 is taken from below 2, which is not marked; 3 is counted twice. -/
theorem C121_take_violated : outs (M.run (R := List Nat) (fun a b : Nat => decide (a < b)) (fun k => [k]) (· ++ ·) {} [.insert 4, .insert 2, .insert 5, .insert 1, .insert 3, .reduce, .erase 4, .reduce]) =
    some [.flag false, .flag false, .flag false, .flag false, .flag false, .value [1, 2, 3, 4, 5], .flag true, .value [1, 2, 3, 3, 5]] := by decide

/-- Items 2 1 4 3, `reduce`, 1 erased: the double rotation moves 3 away from 4, which is not marked; 3 is counted twice. -/
theorem C121_rotate_violated : outs (M.run (R := List Nat) (fun a b : Nat => decide (a < b)) (fun k => [k]) (· ++ ·) {} [.insert 2, .insert 1, .insert 4, .insert 3, .reduce, .erase 1, .reduce]) =
    some [.flag false, .flag false, .flag false, .flag false, .value [1, 2, 3, 4], .flag true, .value [2, 3, 3, 4]] := by decide

theorem total_len (s : List (Nat)) : total (R := Nat) (· + ·) (s.map fun _ => 1) = s.length := by
  have gen : ∀ (s : List Nat) (x : Nat), (s.map fun _ => 1).foldl (· + ·) x = x + s.length := by
    intro s
    induction s with
    | nil => intro x; rfl
    | cons y s ih => intro x; rw [List.map_cons, List.foldl_cons, ih, List.length_cons]; omega
  cases s with
  | nil => rfl
  | cons y s => rw [List.map_cons, total, gen, List.length_cons]; omega

theorem C121_violated : ¬ Claim121 := by
  intro h
  obtain ⟨m, os, e1, e2⟩ := h Nat Nat inferInstance (fun a b => decide (a < b)) (fun _ => 1) (· + ·) natStrict (fun a b c => Nat.add_assoc a b c)
    [.insert 2, .insert 1, .insert 4, .insert 3, .reduce, .erase 1, .reduce]
  have e3 : outs (M.run (R := Nat) (fun a b : Nat => decide (a < b)) (fun _ => 1) (· + ·) {} [.insert 2, .insert 1, .insert 4, .insert 3, .reduce, .erase 1, .reduce]) =
    some [.flag false, .flag false, .flag false, .flag false, .value 4, .flag true, .value 4] := by decide
  rw [e1] at e3
  cases e3
  obtain ⟨_, ⟨_, rfl⟩, _, ⟨_, rfl⟩, _, ⟨_, rfl⟩, _, ⟨_, rfl⟩, _, ⟨_, rfl⟩, _, ⟨_, rfl⟩, _, ⟨⟨s, hs, _, hv⟩, _⟩, _⟩ := e2
  rw [total_len, hs.length_eq] at hv
  revert hv
  decide

end LS.MapReduce

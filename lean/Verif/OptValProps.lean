import Verif.OptVal

/-
A variable that may hold a value or nothing (C144). The specification: a variable is
an `Option`; it says nothing about buffers, flags and lifetimes.
-/

namespace LS.OptVal

/-! ### Specification -/

/-- What a program sees: no variable, an empty one, or one with a value. -/
abbrev View := Nat → Option (Option Val)

def View.set (w : View) (i : Nat) (x : Option (Option Val)) : View :=
  fun k => if k = i then x else w k

/-- The value that a reference shows. -/
def View.get (w : View) : Ref → Option Val
  | .ext v => some v
  | .at i d =>
    match w i with
    | some (some v) => if d ≤ v.length then some (v.drop d) else none
    | _ => none

/-- After a move from `r`. -/
def View.moved (w : View) : Ref → View
  | .ext _ => w
  | .at i d =>
    match w i with
    | some (some v) => w.set i (some (some (v.take d ++ [0])))
    | _ => w

/-- The rules of use: variables are constructed once, used while they exist, and
references point to values that exist. -/
def Rules (w : View) : Op → Prop
  | .newNil i => w i = none
  | .newVal i r => w i = none ∧ w.get r ≠ none
  | .newMoveVal i r => w i = none ∧ w.get r ≠ none
  | .newCopy i j => w i = none ∧ w j ≠ none
  | .newMove i j => w i = none ∧ w j ≠ none
  | .del i => w i ≠ none
  | .setNil i => w i ≠ none
  | .setVal i r => w i ≠ none ∧ w.get r ≠ none
  | .setMoveVal i r => w i ≠ none ∧ w.get r ≠ none
  | .setCopy i j => w i ≠ none ∧ w j ≠ none
  | .value i => w i ≠ none
  | .isNil i => w i ≠ none

/-- What is to happen when no constructor of a value throws. -/
def want (w : View) : Op → View
  | .newNil i => w.set i (some none)
  | .newVal i r => w.set i (some (w.get r))
  | .newMoveVal i r => (w.moved r).set i (some (w.get r))
  | .newCopy i j => w.set i (w j)
  | .newMove i j => (w.set i (w j)).set j (some none)
  | .del i => w.set i none
  | .setNil i => w.set i (some none)
  | .setVal i r => w.set i (some (w.get r))
  | .setMoveVal i r => if r = .at i 0 then w else (w.moved r).set i (some (w.get r))
  | .setCopy i j => w.set i (w j)
  | .value _ => w
  | .isNil _ => w

/-- An assignment from an object that lies inside of the own value. -/
def Inside : Op → Prop
  | .setVal i r => ∃ d, r = .at i (d + 1)
  | .setMoveVal i r => ∃ d, r = .at i (d + 1)
  | _ => False

/-- The view of a state: the flags say which variables hold a value. -/
def view (s : St) : View := fun i =>
  if (s i).made then some (if (s i).armed then (s i).buf else none) else none

/-- Every value of a variable is a living object, and there are no others. -/
def Sound (s : St) : Prop :=
  ∀ i, (s i).buf.isSome = ((s i).made && (s i).armed)

/-! ### The steps -/

theorem put_same (s : St) (i : Nat) (x : Slot) : put s i x i = x := by simp [put]

theorem put_other (s : St) (i k : Nat) (x : Slot) (h : k ≠ i) : put s i x k = s k := by
  simp [put, h]

theorem view_put (s : St) (i : Nat) (x : Slot) :
    view (put s i x) = (view s).set i (if x.made then some (if x.armed then x.buf else none) else none) := by
  funext k
  by_cases h : k = i
  · subst h; simp [view, put, View.set]
  · simp [view, put, View.set, h]

theorem set_set (w : View) (i : Nat) (x y : Option (Option Val)) : (w.set i x).set i y = w.set i y := by
  funext k; by_cases h : k = i <;> simp [View.set, h]

theorem set_self (w : View) (i : Nat) (x : Option (Option Val)) (h : w i = x) : w.set i x = w := by
  funext k; by_cases hk : k = i <;> simp [View.set, hk, h]

theorem set_comm (w : View) (i j : Nat) (x y : Option (Option Val)) (h : i ≠ j) :
    (w.set i x).set j y = (w.set j y).set i x := by
  funext k
  by_cases h1 : k = i
  · subst h1; simp [View.set, h]
  · by_cases h2 : k = j
    · subst h2; simp [View.set, h1]
    · simp [View.set, h1, h2]

theorem sound_put (s : St) (i : Nat) (x : Slot) (h : Sound s)
    (hx : x.buf.isSome = (x.made && x.armed)) : Sound (put s i x) := by
  intro k
  by_cases hk : k = i
  · subst hk; rw [put_same]; exact hx
  · rw [put_other _ _ _ _ hk]; exact h k

/-- A reference shows the same in the state and in its view. -/
theorem deref_get (s : St) (h : Sound s) (r : Ref) : deref s r = (view s).get r := by
  cases r with
  | ext v => rfl
  | «at» i d =>
    have hi := h i
    simp only [deref, View.get, view]
    cases hb : (s i).buf with
    | none =>
      cases hm : (s i).made <;> cases ha : (s i).armed <;> simp
    | some v =>
      rw [hb] at hi
      cases hm : (s i).made <;> cases ha : (s i).armed <;> simp [hm, ha] at hi ⊢

theorem hollow_view (s : St) (h : Sound s) (r : Ref) :
    view (hollow s r) = (view s).moved r ∧ Sound (hollow s r) ∧
      ∀ k, (∀ d, r ≠ .at k d) → hollow s r k = s k := by
  cases r with
  | ext v => exact ⟨rfl, h, fun _ _ => rfl⟩
  | «at» i d =>
    have hi := h i
    cases hb : (s i).buf with
    | none =>
      refine ⟨?_, ?_, ?_⟩
      · simp only [hollow, hb, View.moved, view]
        cases (s i).made <;> cases (s i).armed <;> rfl
      · simpa only [hollow, hb] using h
      · intro k _; simp only [hollow, hb]
    | some v =>
      rw [hb] at hi
      have hi2 : (s i).made = true ∧ (s i).armed = true := by
        have : ((s i).made && (s i).armed) = true := by rw [← hi]; rfl
        simpa using this
      have hv : view s i = some (some v) := by simp [view, hi2.1, hi2.2, hb]
      refine ⟨?_, ?_, ?_⟩
      · simp only [hollow, hb, View.moved, hv]
        rw [view_put]
        simp [hi2.1, hi2.2]
      · simp only [hollow, hb]
        exact sound_put s i _ h (by simp [hi2.1, hi2.2])
      · intro k hk
        simp only [hollow, hb]
        exact put_other _ _ _ _ (fun e => hk d (by rw [e]))

/-- Emptying a variable. -/
theorem clear_ok (s : St) (h : Sound s) (i : Nat) (hm : (s i).made = true) :
    ∃ s', clear s i = some s' ∧ Sound s' ∧ view s' = (view s).set i (some none) ∧
      (s' i).buf = none ∧ (s' i).made = true ∧ ∀ k, k ≠ i → s' k = s k := by
  have hi := h i
  rw [hm] at hi
  unfold clear
  cases ha : (s i).armed with
  | false =>
    rw [ha] at hi
    refine ⟨s, by simp, h, ?_, by simpa using hi, hm, fun _ _ => rfl⟩
    rw [set_self]
    simp [view, hm, ha]
  | true =>
    rw [ha] at hi
    obtain ⟨v, hv⟩ : ∃ v, (s i).buf = some v := Option.isSome_iff_exists.1 (by simpa using hi)
    have hd : (disarm s i i).buf = some v := by simp [disarm, put_same, hv]
    refine ⟨put (disarm s i) i { disarm s i i with buf := none }, ?_, ?_, ?_, ?_, ?_, ?_⟩
    · simp [destruct, hd]
    · intro k
      by_cases hk : k = i
      · subst hk; simp [put_same, disarm]
      · rw [put_other _ _ _ _ hk, disarm, put_other _ _ _ _ hk]; exact h k
    · rw [view_put, disarm, view_put, set_set]
      simp [put_same, hm]
    · simp [put_same]
    · simp [put_same, disarm, hm]
    · intro k hk
      rw [put_other _ _ _ _ hk, disarm, put_other _ _ _ _ hk]

/-- Constructing a value in an empty variable. -/
theorem construct_ok (fails mv : Bool) (s : St) (h : Sound s) (i : Nat) (r : Ref)
    (hm : (s i).made = true) (hb : (s i).buf = none) (hr : (view s).get r ≠ none) :
    if fails then construct fails mv s i r = .thrown s
    else ∃ s', construct fails mv s i r = .done s' ∧ Sound s' ∧
      view s' = (if mv then (view s).moved r else view s).set i (some ((view s).get r)) := by
  obtain ⟨v, hv⟩ : ∃ v, (view s).get r = some v := Option.ne_none_iff_exists'.1 hr
  have hdr : deref s r = some v := by rw [deref_get s h r, hv]
  have hne : ∀ d, r ≠ .at i d := by
    intro d e
    rw [e] at hdr
    simp [deref, hb] at hdr
  cases fails with
  | true => simp [construct, hb, hdr]
  | false =>
    simp only [Bool.false_eq_true, if_false]
    have key : ∀ s1 : St, Sound s1 → s1 i = s i →
        Sound (arm (put s1 i { s1 i with buf := some v }) i) ∧
        view (arm (put s1 i { s1 i with buf := some v }) i) = (view s1).set i (some (some v)) := by
      intro s1 h1 e1
      constructor
      · intro k
        by_cases hk : k = i
        · subst hk; simp [arm, put_same, e1, hm]
        · rw [arm, put_other _ _ _ _ hk, put_other _ _ _ _ hk]; exact h1 k
      · rw [arm, view_put, view_put, set_set]
        simp [put_same, e1, hm]
    cases mv with
    | false =>
      refine ⟨_, by simp [construct, hb, hdr], (key s h rfl).1, ?_⟩
      rw [(key s h rfl).2, hv]; rfl
    | true =>
      obtain ⟨a1, a2, a3⟩ := hollow_view s h r
      refine ⟨_, by simp [construct, hb, hdr], (key _ a2 (a3 i hne)).1, ?_⟩
      rw [(key _ a2 (a3 i hne)).2, a1, hv]; rfl

theorem view_made (s : St) (i : Nat) : (s i).made = (view s i).isSome := by
  simp only [view]; cases (s i).made <;> simp

/-- Memory for a new variable. -/
theorem raw_ok (s : St) (h : Sound s) (i : Nat) (hi : view s i = none) :
    Sound (disarm (raw s i) i) ∧ view (disarm (raw s i) i) = (view s).set i (some none) ∧
      (disarm (raw s i) i i).made = true ∧ (disarm (raw s i) i i).buf = none ∧
      (raw s i i).buf = none ∧
      ∀ k, k ≠ i → raw s i k = s k := by
  have hm : (s i).made = false := by rw [view_made, hi]; rfl
  have hb : (s i).buf = none := by
    have := h i
    rw [hm] at this
    simpa using this
  refine ⟨?_, ?_, by simp [disarm, raw, put_same], by simp [disarm, raw, put_same, hb],
    by simp [raw, put_same, hb], fun k hk => put_other _ _ _ _ hk⟩
  · intro k
    by_cases hk : k = i
    · subst hk; simp [disarm, raw, put_same, hb]
    · rw [disarm, raw, put_other _ _ _ _ hk, put_other _ _ _ _ hk]; exact h k
  · rw [disarm, view_put, raw, view_put, set_set]; simp [put_same]

/-- The old content of the flag does not matter for the construction. -/
theorem construct_disarm (mv : Bool) (s : St) (i : Nat) (r : Ref) (hb : (s i).buf = none) :
    construct false mv s i r = construct false mv (disarm s i) i r ∧
    deref (disarm s i) r = deref s r := by
  have e : (disarm s i i).buf = none := by simp [disarm, put_same, hb]
  have ed : deref (disarm s i) r = deref s r := by
    cases r with
    | ext v => rfl
    | «at» j d =>
      by_cases hj : j = i
      · subst hj; simp [deref, disarm, put_same]
      · simp only [deref, disarm, put_other _ _ _ _ hj]
  refine ⟨?_, ed⟩
  cases hd : deref s r with
  | none => simp [construct, hb, e, ed, hd]
  | some v =>
    simp only [construct, hb, e, ed, hd, Bool.false_eq_true, if_false, Out.done.injEq]
    funext k
    cases mv with
    | false =>
      by_cases hk : k = i
      · subst hk; simp [arm, put_same, disarm]
      · simp [arm, put_other _ _ _ _ hk, disarm]
    | true =>
      cases r with
      | ext v =>
        by_cases hk : k = i
        · subst hk; simp [arm, put_same, disarm, hollow]
        · simp [arm, put_other _ _ _ _ hk, disarm, hollow]
      | «at» j d =>
        have hj : j ≠ i := by
          rintro rfl
          simp [deref, hb] at hd
        cases hbj : (s j).buf with
        | none => simp [deref, hbj] at hd
        | some u =>
          have hbj' : (disarm s i j).buf = some u := by
            rw [disarm, put_other _ _ _ _ hj, hbj]
          simp only [if_true, hollow, hbj, hbj']
          by_cases hk : k = i
          · subst hk; simp [arm, put_same, disarm, put_other _ _ _ _ (Ne.symm hj)]
          · by_cases hkj : k = j
            · subst hkj; simp [arm, put_same, disarm, put_other _ _ _ _ hk]
            · simp [arm, disarm, put_other _ _ _ _ hk, put_other _ _ _ _ hkj]

/-- References are not changed by a new empty variable. -/
theorem get_set (w : View) (i : Nat) (r : Ref) (h : ∀ d, r ≠ .at i d) (x : Option (Option Val)) :
    (w.set i x).get r = w.get r ∧ ((w.set i x).moved r).set i x = (w.moved r).set i x := by
  cases r with
  | ext v => exact ⟨rfl, by simp [View.moved, set_set]⟩
  | «at» j d =>
    have hj : j ≠ i := fun e => h d (by rw [e])
    have e : (w.set i x) j = w j := by simp [View.set, hj]
    refine ⟨by simp only [View.get, e], ?_⟩
    simp only [View.moved, e]
    split
    · rw [set_comm _ _ _ _ _ (Ne.symm hj), set_set]
    · rw [set_set]

theorem get_ne (w : View) (i : Nat) (hw : w i = none ∨ w i = some none) (r : Ref)
    (h : w.get r ≠ none) : ∀ d, r ≠ .at i d := by
  intro d e
  rw [e] at h
  rcases hw with hw | hw <;> simp [View.get, hw] at h

/-- An operation on one variable with a flag that is set. -/
theorem view_val (s : St) (h : Sound s) (i : Nat) (hi : view s i ≠ none) :
    ((s i).armed = true ∧ ∃ v, (s i).buf = some v ∧ view s i = some (some v)) ∨
    ((s i).armed = false ∧ (s i).buf = none ∧ view s i = some none) := by
  have hm : (s i).made = true := by
    rw [view_made]; exact Option.isSome_iff_ne_none.2 hi
  have hb := h i
  rw [hm] at hb
  cases ha : (s i).armed with
  | true =>
    rw [ha] at hb
    obtain ⟨v, hv⟩ : ∃ v, (s i).buf = some v := Option.isSome_iff_exists.1 (by simpa using hb)
    exact Or.inl ⟨rfl, v, hv, by simp [view, hm, ha, hv]⟩
  | false =>
    rw [ha] at hb
    exact Or.inr ⟨rfl, by simpa using hb, by simp [view, hm, ha]⟩

theorem made_of (s : St) (i : Nat) (hi : view s i ≠ none) : (s i).made = true := by
  rw [view_made]; exact Option.isSome_iff_ne_none.2 hi

/-! ### The operations -/

/-- What an operation leaves: done as wanted, or the constructor of a value has thrown. -/
def Good (fails : Bool) (s : St) (op : Op) (lost : View) : Prop :=
  (∃ s', step fails s op = .done s' ∧ Sound s' ∧ view s' = want (view s) op) ∨
  (fails = true ∧ ∃ s', step fails s op = .thrown s' ∧ Sound s' ∧ view s' = lost)

theorem new_val (fails mv : Bool) (s : St) (h : Sound s) (i : Nat) (r : Ref)
    (hi : view s i = none) (hr : (view s).get r ≠ none) :
    if fails then ∃ s', born i (construct fails mv (raw s i) i r) = .thrown s' ∧ Sound s' ∧ view s' = view s
    else ∃ s', born i (construct fails mv (raw s i) i r) = .done s' ∧ Sound s' ∧
      view s' = (if mv then (view s).moved r else view s).set i (some ((view s).get r)) := by
  obtain ⟨a1, a2, a3, a4, a5, _⟩ := raw_ok s h i hi
  have hne := get_ne (view s) i (Or.inl hi) r hr
  have hg := get_set (view s) i r hne (some none)
  have hr' : (view (disarm (raw s i) i)).get r ≠ none := by rw [a2, hg.1]; exact hr
  have cd := construct_disarm mv (raw s i) i r a5
  cases fails with
  | true =>
    obtain ⟨v, hv⟩ := Option.ne_none_iff_exists'.1 hr'
    have hd : deref (raw s i) r = some v := by rw [← cd.2, deref_get _ a1, hv]
    have c : construct true mv (raw s i) i r = .thrown (raw s i) := by simp [construct, a5, hd]
    simp only [if_true]
    rw [c]
    refine ⟨_, rfl, ?_, ?_⟩
    · intro k
      by_cases hk : k = i
      · subst hk; simp [put_same, a5]
      · rw [raw, put_other _ _ _ _ hk, put_other _ _ _ _ hk]; exact h k
    · rw [view_put, raw, view_put, set_set]
      simp only [Bool.false_eq_true, if_false]
      exact set_self _ _ _ hi
  | false =>
    have c := construct_ok false mv (disarm (raw s i) i) a1 i r a3 a4 hr'
    simp only [Bool.false_eq_true, if_false] at c ⊢
    obtain ⟨s', c1, c2, c3⟩ := c
    refine ⟨s', by rw [cd.1, c1]; rfl, c2, ?_⟩
    rw [c3, a2, hg.1]
    cases mv with
    | false => simp [set_set]
    | true =>
      simp only [if_true]
      have := congrArg (fun w => View.set w i (some ((view s).get r))) hg.2
      simp only [set_set] at this
      exact this

theorem assign_val (fails mv : Bool) (s : St) (h : Sound s) (i : Nat) (r : Ref)
    (hi : view s i ≠ none) (hr : (view s).get r ≠ none) (hin : ∀ d, r ≠ .at i (d + 1))
    (h0 : r ≠ .at i 0) :
    if fails then ∃ s', assign fails mv s i r = .thrown s' ∧ Sound s' ∧ view s' = (view s).set i (some none)
    else ∃ s', assign fails mv s i r = .done s' ∧ Sound s' ∧
      view s' = (if mv then (view s).moved r else view s).set i (some ((view s).get r)) := by
  obtain ⟨s1, b1, b2, b3, b4, b5, b6⟩ := clear_ok s h i (made_of s i hi)
  have hne : ∀ d, r ≠ .at i d := by
    intro d
    cases d with
    | zero => exact h0
    | succ d => exact hin d
  have hg := get_set (view s) i r hne (some none)
  have c := construct_ok fails mv s1 b2 i r b5 b4 (by rw [b3, hg.1]; exact hr)
  cases fails with
  | true =>
    simp only [if_true] at c ⊢
    exact ⟨s1, by simp only [assign, if_neg h0, b1, c], b2, b3⟩
  | false =>
    simp only [Bool.false_eq_true, if_false] at c ⊢
    obtain ⟨s', c1, c2, c3⟩ := c
    refine ⟨s', by simp only [assign, if_neg h0, b1, c1], c2, ?_⟩
    rw [c3, b3, hg.1]
    cases mv with
    | false => simp [set_set]
    | true =>
      simp only [if_true]
      have := congrArg (fun w => View.set w i (some ((view s).get r))) hg.2
      simp only [set_set] at this
      exact this

/-- What is left of the view when a constructor of a value has thrown: a constructor of a
variable leaves no variable, an assignment leaves the variable empty. -/
def lost (w : View) : Op → View
  | .setVal i _ => w.set i (some none)
  | .setMoveVal i _ => w.set i (some none)
  | .setCopy i _ => w.set i (some none)
  | _ => w

/-- The operations that change something. -/
def Changes : Op → Prop
  | .value _ => False
  | .isNil _ => False
  | _ => True

theorem get_at0 (w : View) (j : Nat) (v : Val) (h : w j = some (some v)) :
    w.get (.at j 0) = some v := by
  simp [View.get, h]

/-! ### C144 -/

/-- Under the rules of use, and without an assignment from inside of the own value, every
operation does what is wanted, objects live exactly in the variables that hold a value
(so nothing is destroyed twice, lost, or used when it is dead), and a constructor of a value
that throws leaves the variables sound. Missing from the full claim: assignments from inside
of the own value (`C144_inside_violated`), the value of an assignment that throws is
kept (`C144_throw_violated`). -/
theorem C144_step_partial (fails : Bool) (s : St) (h : Sound s) (op : Op) (hop : Rules (view s) op)
    (hc : Changes op) (hin : ¬ Inside op) : Good fails s op (lost (view s) op) := by
  cases op with
  | newNil i =>
    obtain ⟨a1, a2, _⟩ := raw_ok s h i hop
    exact Or.inl ⟨_, rfl, a1, a2⟩
  | newVal i r =>
    have c := new_val fails false s h i r hop.1 hop.2
    cases fails with
    | true => exact Or.inr ⟨rfl, c⟩
    | false => exact Or.inl c
  | newMoveVal i r =>
    have c := new_val fails true s h i r hop.1 hop.2
    cases fails with
    | true => exact Or.inr ⟨rfl, c⟩
    | false => exact Or.inl c
  | newCopy i j =>
    obtain ⟨hi, hj⟩ := hop
    rcases view_val s h j hj with ⟨ha, v, hb, hv⟩ | ⟨ha, hb, hv⟩
    · have g := get_at0 _ _ _ hv
      have c := new_val fails false s h i (.at j 0) hi (by rw [g]; simp)
      cases fails with
      | true =>
        refine Or.inr ⟨rfl, ?_⟩
        obtain ⟨s', c1, c2⟩ := c
        exact ⟨s', by simp only [step, ha, if_true]; exact c1, c2⟩
      | false =>
        obtain ⟨s', c1, c2, c3⟩ := c
        refine Or.inl ⟨s', by simp only [step, ha, if_true]; exact c1, c2, ?_⟩
        rw [c3, g, want, hv]; rfl
    · obtain ⟨a1, a2, a3, a4, a5⟩ := raw_ok s h i hi
      exact Or.inl ⟨disarm (raw s i) i, by simp only [step, ha, Bool.false_eq_true, if_false], a1,
        by rw [a2, want, hv]⟩
  | newMove i j =>
    obtain ⟨hi, hj⟩ := hop
    have hij : i ≠ j := by rintro rfl; exact hj hi
    rcases view_val s h j hj with ⟨ha, v, hb, hv⟩ | ⟨ha, hb, hv⟩
    · have g := get_at0 _ _ _ hv
      have c := new_val fails true s h i (.at j 0) hi (by rw [g]; simp)
      cases fails with
      | true =>
        obtain ⟨s', c1, c2⟩ := c
        refine Or.inr ⟨rfl, s', ?_, c2⟩
        simp only [step, ha, if_true, c1]
      | false =>
        obtain ⟨s', c1, c2, c3⟩ := c
        have hj' : view s' j ≠ none := by
          rw [c3]
          simp [View.set, Ne.symm hij, View.moved, hv]
        obtain ⟨s2, b1, b2, b3, _⟩ := clear_ok s' c2 j (made_of s' j hj')
        refine Or.inl ⟨s2, by simp only [step, ha, if_true, c1, setNil, b1], b2, ?_⟩
        rw [b3, c3, g, want, hv]
        funext k
        by_cases h1 : k = j
        · simp [View.set, h1]
        · by_cases h2 : k = i <;> simp [View.set, h1, h2, View.moved, hv]
    · obtain ⟨a1, a2, a3, a4, a5⟩ := raw_ok s h i hi
      have sd := a1
      have vd := a2
      have hj' : view (disarm (raw s i) i) j ≠ none := by
        rw [vd]; simp [View.set, Ne.symm hij, hv]
      obtain ⟨s2, b1, b2, b3, _⟩ := clear_ok _ sd j (made_of _ j hj')
      refine Or.inl ⟨s2, by simp only [step, ha, Bool.false_eq_true, if_false, setNil, b1], b2, ?_⟩
      rw [b3, vd, want, hv]
  | del i =>
    rcases view_val s h i hop with ⟨ha, v, hb, hv⟩ | ⟨ha, hb, hv⟩
    · refine Or.inl ⟨put (put s i { s i with buf := none }) i { put s i { s i with buf := none } i with made := false }, ?_, ?_, ?_⟩
      · simp only [step, ha, if_true, destruct, hb]
      · intro k
        by_cases hk : k = i
        · subst hk; simp [put_same]
        · rw [put_other _ _ _ _ hk, put_other _ _ _ _ hk]; exact h k
      · rw [view_put, view_put, set_set, want]; simp
    · refine Or.inl ⟨put s i { s i with made := false }, ?_, ?_, ?_⟩
      · simp only [step, ha, Bool.false_eq_true, if_false]
      · exact sound_put _ _ _ h (by simp [hb])
      · rw [view_put, want]; simp
  | setNil i =>
    obtain ⟨s1, b1, b2, b3, _⟩ := clear_ok s h i (made_of s i hop)
    exact Or.inl ⟨s1, by simp only [step, setNil, b1], b2, b3⟩
  | setVal i r =>
    by_cases h0 : r = .at i 0
    · subst h0
      refine Or.inl ⟨s, by simp [step, assign], h, ?_⟩
      rw [want, set_self]
      rcases view_val s h i hop.1 with ⟨ha, v, hb, hv⟩ | ⟨ha, hb, hv⟩
      · rw [get_at0 _ _ _ hv, hv]
      · exact absurd (by simp [View.get, hv]) hop.2
    · have c := assign_val fails false s h i r hop.1 hop.2 (fun d e => hin ⟨d, e⟩) h0
      cases fails with
      | true => exact Or.inr ⟨rfl, c⟩
      | false => exact Or.inl c
  | setMoveVal i r =>
    by_cases h0 : r = .at i 0
    · subst h0
      exact Or.inl ⟨s, by simp [step, assign], h, by simp [want]⟩
    · have c := assign_val fails true s h i r hop.1 hop.2 (fun d e => hin ⟨d, e⟩) h0
      cases fails with
      | true => exact Or.inr ⟨rfl, c⟩
      | false =>
        obtain ⟨s', c1, c2, c3⟩ := c
        exact Or.inl ⟨s', c1, c2, by rw [c3, want, if_neg h0]; rfl⟩
  | setCopy i j =>
    obtain ⟨hi, hj⟩ := hop
    by_cases hij : i = j
    · subst hij
      exact Or.inl ⟨s, by simp [step], h, by rw [want, set_self _ _ _ rfl]⟩
    · obtain ⟨s1, b1, b2, b3, b4, b5, b6⟩ := clear_ok s h i (made_of s i hi)
      have ej : s1 j = s j := b6 j (Ne.symm hij)
      rcases view_val s h j hj with ⟨ha, v, hb, hv⟩ | ⟨ha, hb, hv⟩
      · have hv1 : view s1 j = some (some v) := by rw [b3]; simp [View.set, Ne.symm hij, hv]
        have g := get_at0 _ _ _ hv1
        have c := construct_ok fails false s1 b2 i (.at j 0) b5 b4 (by rw [g]; simp)
        cases fails with
        | true =>
          refine Or.inr ⟨rfl, s1, ?_, b2, b3⟩
          simp only [if_true] at c
          simp only [step, if_neg hij, b1, ej, ha, if_true, c]
        | false =>
          simp only [Bool.false_eq_true, if_false] at c
          obtain ⟨s', c1, c2, c3⟩ := c
          refine Or.inl ⟨s', ?_, c2, ?_⟩
          · simp only [step, if_neg hij, b1, ej, ha, if_true, c1]
          · rw [c3, g, b3, set_set, want, hv]
      · refine Or.inl ⟨s1, ?_, b2, ?_⟩
        · simp only [step, if_neg hij, b1, ej, ha, Bool.false_eq_true, if_false]
        · rw [b3, want, hv]
  | value i => exact hc.elim
  | isNil i => exact hc.elim

/-- Reading: the value of a variable that holds one, otherwise an exception; and the
comparison with `nil`. -/
theorem C144_read (fails : Bool) (s : St) (h : Sound s) (i : Nat) (hi : view s i ≠ none) :
    (∀ v, view s i = some (some v) → step fails s (.value i) = .val v s ∧
      step fails s (.isNil i) = .bool false s) ∧
    (view s i = some none → step fails s (.value i) = .null s ∧
      step fails s (.isNil i) = .bool true s) := by
  rcases view_val s h i hi with ⟨ha, v, hb, hv⟩ | ⟨ha, hb, hv⟩
  · constructor
    · intro v' e
      rw [hv] at e
      have : v = v' := by simpa using e
      subst this
      exact ⟨by simp [step, ha, hb], by simp [step, ha]⟩
    · intro e; rw [hv] at e; cases e
  · constructor
    · intro v' e; rw [hv] at e; cases e
    · intro _
      exact ⟨by simp [step, ha], by simp [step, ha]⟩

/-- A program: the operations one after the other; `none` when something is undefined. -/
def runs (fails : Bool) (s : St) : List Op → Option St
  | [] => some s
  | op :: r =>
    match step fails s op with
    | .done s' => runs fails s' r
    | .thrown s' => runs fails s' r
    | .null s' => runs fails s' r
    | .val _ s' => runs fails s' r
    | .bool _ s' => runs fails s' r
    | .ub => none

/-- Every operation of a program keeps the rules of use where it is done. -/
def Lawful (w : View) : List Op → Prop
  | [] => True
  | op :: r => Rules w op ∧ ¬ Inside op ∧ Lawful (want w op) r

/-- A lawful program without exceptions ends as the specification says, and when all the
variables are gone, no object lives. -/
theorem C144_program_partial (s : St) (h : Sound s) (ops : List Op) (hl : Lawful (view s) ops) :
    ∃ s', runs false s ops = some s' ∧ Sound s' ∧ view s' = ops.foldl want (view s) ∧
      ((∀ i, view s' i = none) → ∀ i, (s' i).buf = none) := by
  have dead : ∀ s' : St, Sound s' → (∀ i, view s' i = none) → ∀ i, (s' i).buf = none := by
    intro s' h' hv i
    have hm : (s' i).made = false := by rw [view_made, hv i]; rfl
    have := h' i
    rw [hm] at this
    simpa using this
  induction ops generalizing s with
  | nil => exact ⟨s, rfl, h, rfl, dead s h⟩
  | cons op r ih =>
    obtain ⟨h1, h2, h3⟩ := hl
    by_cases hc : Changes op
    · rcases C144_step_partial false s h op h1 hc h2 with ⟨s', e, hs, hv⟩ | ⟨e, _⟩
      · rw [← hv] at h3
        obtain ⟨s2, a1, a2, a3, a4⟩ := ih s' hs h3
        exact ⟨s2, by simp only [runs, e, a1], a2, by rw [a3, hv]; rfl, a4⟩
      · cases e
    · have hw : want (view s) op = view s := by cases op <;> first | rfl | exact absurd trivial hc
      rw [hw] at h3
      obtain ⟨s2, a1, a2, a3, a4⟩ := ih s h h3
      refine ⟨s2, ?_, a2, by rw [a3, List.foldl_cons, hw], a4⟩
      cases op with
      | value i =>
        have hr := C144_read false s h i h1
        rcases view_val s h i h1 with ⟨_, v, _, hv⟩ | ⟨_, _, hv⟩
        · simp only [runs, (hr.1 v hv).1, a1]
        · simp only [runs, (hr.2 hv).1, a1]
      | isNil i =>
        have hr := C144_read false s h i h1
        rcases view_val s h i h1 with ⟨_, v, _, hv⟩ | ⟨_, _, hv⟩
        · simp only [runs, (hr.1 v hv).2, a1]
        · simp only [runs, (hr.2 hv).2, a1]
      | _ => exact absurd trivial hc

/-- No variable yet. -/
def start : St := fun _ => ⟨false, none, false⟩

/-- A lawful program that copies, moves, clears and ends. -/
example : Lawful (view start)
    [.newVal 0 (.ext [1, 2]), .newCopy 1 0, .newMove 2 0, .setVal 0 (.at 1 1), .setCopy 1 2, .setNil 2,
      .del 0, .del 1, .del 2] := by
  simp [Lawful, Rules, Inside, want, View.set, View.get, view, start]

/-- In the middle: the first variable has the inner object of the second. -/
example : ([Op.newVal 0 (.ext [1, 2]), .newCopy 1 0, .newMove 2 0, .setVal 0 (.at 1 1)].foldl want (view start)) 0 =
    some (some [2]) := by
  simp [want, View.set, View.get]

/-! ### Disagreements -/

/-- An assignment from an object inside of the own value destroys it before it is copied, for
every value and every depth (`list = list->next`). -/
theorem C144_inside_violated (fails mv : Bool) (s : St) (h : Sound s) (i d : Nat) (v : Val)
    (hv : view s i = some (some v)) (hd : d + 1 ≤ v.length) :
    Rules (view s) (.setVal i (.at i (d + 1))) ∧ assign fails mv s i (.at i (d + 1)) = .ub := by
  have hi : view s i ≠ none := by rw [hv]; simp
  refine ⟨⟨hi, by simp [View.get, hv, hd]⟩, ?_⟩
  obtain ⟨s1, b1, b2, b3, b4, b5, b6⟩ := clear_ok s h i (made_of s i hi)
  simp [assign, b1, construct, b4, deref]

/-- The hypotheses hold for a variable with the list 1, 2. -/
example : Sound (put start 0 ⟨true, some [1, 2], true⟩) ∧
    view (put start 0 ⟨true, some [1, 2], true⟩) 0 = some (some [1, 2]) := by
  refine ⟨sound_put _ _ _ (fun _ => rfl) rfl, rfl⟩

/-- An assignment whose copy throws has already destroyed the old value. -/
theorem C144_throw_violated (s : St) (h : Sound s) (i : Nat) (v w : Val)
    (hv : view s i = some (some v)) :
    ∃ s', step true s (.setVal i (.ext w)) = .thrown s' ∧ view s' i = some none := by
  have hi : view s i ≠ none := by rw [hv]; simp
  obtain ⟨s', e, _, e2⟩ := assign_val true false s h i (.ext w) hi (by simp [View.get])
    (by intro d; simp) (by simp)
  exact ⟨s', e, by rw [e2]; simp [View.set]⟩

/-- The comparison with `nil` when the constructor of a value throws in a program. -/
example : ∃ s', step true (put start 0 ⟨true, some [1], true⟩) (.setVal 0 (.ext [2])) = .thrown s' ∧
    view s' 0 = some none :=
  C144_throw_violated _ (sound_put _ _ _ (fun _ => rfl) rfl) 0 [1] [2] rfl

end LS.OptVal

import Verif.StringCore
/-!
# C134: strings keep their text

Specification: a string variable is nil, holds a text, or is being filled by an iterator; copies are
independent values.  The specification knows nothing of buffers, counters and terminating zeros.
-/

namespace LS.StringCore

/-! ## Specification -/

/-- A variable: nil, a text, or a text being filled by the iterators of family `g`. -/
inductive V where
  | nil
  | done (t : List Nat)
  | opn (g : Nat)
deriving DecidableEq, Repr

/-- Variables, iterators (their families), text and announced length of every family. -/
structure Sp where
  vars : List V
  its : List (Option Nat)
  txt : Nat → List Nat
  cap : Nat → Nat
  nextG : Nat

def fset {α : Type} (f : Nat → α) (g : Nat) (x : α) : Nat → α := fun y => if y = g then x else f y

/-- The text of family `g` is complete. -/
def finish (g : Nat) (t : List Nat) (v : V) : V := if v = .opn g then .done t else v

/-- A text of `n` characters fits to the memory. -/
def fits (c : Cfg) (n : Nat) : Prop := 40 + (n + c.zl) * c.w < 2 ^ 64

instance (c : Cfg) (n : Nat) : Decidable (fits c n) := inferInstanceAs (Decidable (_ < _))

/-- One operation on values; `none` is outside of the rules: using a string while it is being filled (other
than copying, replacing and clearing it), more characters than announced, assigning a string to itself. -/
def sstep (c : Cfg) (a : Sp) : Op → Option Sp
  | .load i t =>
    if i < a.vars.length ∧ fits c t.length then some { a with vars := a.vars.set i (.done t), nextG := a.nextG + 1 } else none
  | .assign i j =>
    match a.vars[i]?, a.vars[j]? with
    | some _, some v => if i = j then none else some { a with vars := a.vars.set i v }
    | _, _ => none
  | .clear i => if i < a.vars.length then some { a with vars := a.vars.set i .nil } else none
  | .isolate i =>
    match a.vars[i]? with
    | some .nil => some a
    | some (.done _) => some a
    | _ => none
  | .poke i k x =>
    match a.vars[i]? with
    | some (.done t) => if k < t.length then some { a with vars := a.vars.set i (.done (t.set k x)) } else none
    | _ => none
  | .openIter i k n =>
    if i < a.vars.length ∧ a.its[k]? = some none ∧ fits c n then
      some ⟨a.vars.set i (.opn a.nextG), a.its.set k (some a.nextG), fset a.txt a.nextG [], fset a.cap a.nextG n, a.nextG + 1⟩
    else none
  | .write k x =>
    match a.its[k]? with
    | some (some g) => if (a.txt g).length < a.cap g then some { a with txt := fset a.txt g (a.txt g ++ [x]) } else none
    | _ => none
  | .blockWrite k xs all =>
    match a.its[k]? with
    | some (some g) =>
      if (a.txt g).length + xs.length ≤ a.cap g then some { a with txt := fset a.txt g (a.txt g ++ xs) }
      else if all then some a
      else some { a with txt := fset a.txt g (a.txt g ++ xs.take (a.cap g - (a.txt g).length)) }
    | _ => none
  | .dupIter k k' =>
    match a.its[k]?, a.its[k']? with
    | some (some g), some none => some { a with its := a.its.set k' (some g) }
    | _, _ => none
  | .dropIter k =>
    match a.its[k]? with
    | some (some g) =>
      if some g ∈ a.its.set k none then some { a with its := a.its.set k none }
      else some { a with its := a.its.set k none, vars := a.vars.map (finish g (a.txt g)) }
    | _ => none

def srun (c : Cfg) (a : Sp) : List Op → Option Sp
  | [] => some a
  | o :: os => (sstep c a o).bind fun a' => srun c a' os

def sstart (nv ni : Nat) : Sp := ⟨List.replicate nv .nil, List.replicate ni none, fun _ => [], fun _ => 0, 0⟩

/-! ## References -/

/-- Holders of buffer `b`: strings and iterators. -/
def cnt (s : St) (b : Nat) : Nat :=
  s.strs.countP (fun o => decide (o = some b)) + s.its.countP (fun o => decide (o.map Prod.snd = some b))

/-- Counters of the buffers are as `f` says; a buffer nobody holds is freed. -/
def Refs (s : St) (f : Nat → Nat) : Prop :=
  (∀ b B, s.bufs b = some B → B.refs = f b ∧ 0 < f b ∧ b < s.next) ∧ (∀ b, s.bufs b = none → f b = 0)

def one (o : Option Nat) (b : Nat) : Nat := if o = some b then 1 else 0

theorem one_none (b : Nat) : one none b = 0 := by simp [one]

theorem Refs.congr {s : St} {f g : Nat → Nat} (h : Refs s f) (e : ∀ b, f b = g b) : Refs s g := by
  have : f = g := funext e
  rw [← this]; exact h

/-- What lives on has the same content. -/
def Keep (s s' : St) : Prop :=
  ∀ b B', s'.bufs b = some B' → ∃ B, s.bufs b = some B ∧ B.cap = B'.cap ∧ B.bytes = B'.bytes ∧ B.chars = B'.chars

theorem Keep.trans {s s' s'' : St} (h : Keep s s') (h' : Keep s' s'') : Keep s s'' := by
  intro b B hB
  obtain ⟨B1, e1, a1, a2, a3⟩ := h' b B hB
  obtain ⟨B2, e2, c1, c2, c3⟩ := h b B1 e1
  exact ⟨B2, e2, by rw [c1, a1], by rw [c2, a2], by rw [c3, a3]⟩

theorem Keep.refl (s : St) : Keep s s := fun _ B h => ⟨B, h, rfl, rfl, rfl⟩

/-- The same variables, iterators and contents. -/
structure Same (s s' : St) : Prop where
  strs : s'.strs = s.strs
  its : s'.its = s.its
  ng : s'.nextG = s.nextG
  next : s'.next = s.next
  keep : Keep s s'

theorem addRef_ok {s : St} {f : Nat → Nat} (h : Refs s f) (o : Option Nat) (hl : ∀ b, o = some b → ∃ B, s.bufs b = some B) :
    ∃ s', addRef s o = .ok s' ∧ Refs s' (fun b => f b + one o b) ∧ Same s s' := by
  cases o with
  | none => exact ⟨s, rfl, h.congr (by simp [one]), rfl, rfl, rfl, rfl, Keep.refl s⟩
  | some b =>
    obtain ⟨B, hB⟩ := hl b rfl
    refine ⟨{ s with bufs := upd s.bufs b (some { B with refs := B.refs + 1 }) }, by simp [addRef, hB], ⟨?_, ?_⟩, rfl, rfl, rfl, rfl, ?_⟩
    · intro x X hX
      have hx := h.1 x
      simp only [upd] at hX
      split at hX
      · rename_i e
        subst e
        cases hX
        have := hx B hB
        simp [one]
        omega
      · rename_i e
        have := hx X hX
        have : one (some b) x = 0 := by simp only [one]; rw [if_neg]; intro q; cases q; exact e rfl
        try dsimp only at *
        omega
    · intro x hx
      simp only [upd] at hx
      split at hx
      · cases hx
      · rename_i e
        have := h.2 x hx
        have : one (some b) x = 0 := by simp only [one]; rw [if_neg]; intro q; cases q; exact e rfl
        try dsimp only at *
        omega
    · intro x X hX
      simp only [upd] at hX
      split at hX
      · rename_i e
        subst e
        cases hX
        exact ⟨B, hB, rfl, rfl, rfl⟩
      · exact ⟨X, hX, rfl, rfl, rfl⟩

theorem release_ok {s : St} {f : Nat → Nat} (o : Option Nat) (h : Refs s (fun b => f b + one o b)) :
    ∃ s', release s o = .ok s' ∧ Refs s' f ∧ Same s s' := by
  cases o with
  | none => exact ⟨s, rfl, h.congr (by simp [one]), rfl, rfl, rfl, rfl, Keep.refl s⟩
  | some b =>
    have h1 : one (some b) b = 1 := by simp [one]
    have h0 : ∀ x, x ≠ b → one (some b) x = 0 := by
      intro x e; simp only [one]; rw [if_neg]; intro q; cases q; exact e rfl
    cases hB : s.bufs b with
    | none => have := h.2 b hB; dsimp only at this; omega
    | some B =>
      have hb := h.1 b B hB
      by_cases hr : B.refs = 1
      · refine ⟨{ s with bufs := upd s.bufs b none }, by simp [release, hB, hr], ⟨?_, ?_⟩, rfl, rfl, rfl, rfl, ?_⟩
        · intro x X hX
          simp only [upd] at hX
          split at hX
          · cases hX
          · rename_i e
            have := h.1 x X hX
            have := h0 x e
            simp only at *
            omega
        · intro x hx
          simp only [upd] at hx
          by_cases e : x = b
          · subst e; have := h.1 x B hB; dsimp only at *; omega
          · rw [if_neg e] at hx
            have := h.2 x hx
            try dsimp only at *
            omega
        · intro x X hX
          simp only [upd] at hX
          split at hX
          · cases hX
          · exact ⟨X, hX, rfl, rfl, rfl⟩
      · refine ⟨{ s with bufs := upd s.bufs b (some { B with refs := B.refs - 1 }) }, by simp [release, hB, hr], ⟨?_, ?_⟩, rfl, rfl, rfl, rfl, ?_⟩
        · intro x X hX
          simp only [upd] at hX
          split at hX
          · rename_i e
            subst e
            cases hX
            simp only
            try dsimp only at *
            omega
          · rename_i e
            have := h.1 x X hX
            have := h0 x e
            simp only at *
            omega
        · intro x hx
          simp only [upd] at hx
          split at hx
          · cases hx
          · rename_i e
            have := h.2 x hx
            try dsimp only at *
            omega
        · intro x X hX
          simp only [upd] at hX
          split at hX
          · rename_i e
            subst e
            cases hX
            exact ⟨B, hB, rfl, rfl, rfl⟩
          · exact ⟨X, hX, rfl, rfl, rfl⟩

theorem countP_set {α : Type} (p : α → Bool) (x : α) : ∀ (l : List α) (i : Nat) (y : α), l[i]? = some y →
    (l.set i x).countP p + (if p y then 1 else 0) = l.countP p + (if p x then 1 else 0)
  | [], i, y, h => by simp at h
  | a :: l, 0, y, h => by
    simp at h
    subst h
    simp only [List.set_cons_zero, List.countP_cons]
    omega
  | a :: l, i + 1, y, h => by
    have := countP_set p x l i y (by simpa using h)
    simp only [List.set_cons_succ, List.countP_cons]
    omega

theorem var_eq {s : St} {i : Nat} (h : i < s.strs.length) : s.strs[i]? = some (var s i) := by
  simp [var, List.getElem?_eq_getElem h]

theorem cnt_setVar {s : St} {i : Nat} (h : i < s.strs.length) (o : Option Nat) (b : Nat) :
    cnt (setVar s i o) b + one (var s i) b = cnt s b + one o b := by
  have := countP_set (fun q : Option Nat => decide (q = some b)) o s.strs i (var s i) (var_eq h)
  simp only [cnt, setVar, one, decide_eq_true_eq] at *
  omega

theorem cnt_setIt {s : St} {k : Nat} {p : Option (Nat × Nat)} (h : s.its[k]? = some p) (o : Option (Nat × Nat)) (b : Nat) :
    cnt (setIt s k o) b + one (p.map Prod.snd) b = cnt s b + one (o.map Prod.snd) b := by
  have := countP_set (fun q : Option (Nat × Nat) => decide (q.map Prod.snd = some b)) o s.its k p h
  simp only [cnt, setIt, one, decide_eq_true_eq] at *
  omega

theorem cnt_congr {s s' : St} (h1 : s'.strs = s.strs) (h2 : s'.its = s.its) (b : Nat) : cnt s' b = cnt s b := by
  simp [cnt, h1, h2]

theorem cnt_var {s : St} {i b : Nat} (h : var s i = some b) : 0 < cnt s b := by
  have : some b ∈ s.strs := by
    rw [var] at h
    rw [List.mem_iff_getElem?]
    refine ⟨i, ?_⟩
    cases e : s.strs[i]? with
    | none => rw [e] at h; cases h
    | some o => rw [e] at h; simp at h; rw [h]
  have : 0 < s.strs.countP (fun o => decide (o = some b)) := List.countP_pos_iff.mpr ⟨some b, this, by simp⟩
  rw [cnt]; omega

theorem cnt_it {s : St} {g b : Nat} (h : some (g, b) ∈ s.its) : 0 < cnt s b := by
  have : 0 < s.its.countP (fun o => decide (o.map Prod.snd = some b)) := List.countP_pos_iff.mpr ⟨some (g, b), h, by simp⟩
  rw [cnt]; omega

theorem Refs.live {s : St} {f : Nat → Nat} (h : Refs s f) {b : Nat} (hb : 0 < f b) : ∃ B, s.bufs b = some B := by
  cases e : s.bufs b with
  | none => have := h.2 b e; omega
  | some B => exact ⟨B, rfl⟩

theorem assignFrom_ok {s : St} {i : Nat} {e : Nat → Nat} (h : Refs s (fun b => cnt s b + e b)) (hi : i < s.strs.length)
    (src : St → Option Nat) (o : Option Nat) (hs : ∀ s1 : St, s1.strs = s.strs ∨ s1.strs = s.strs.set i none → src s1 = o)
    (hl : ∀ b, o = some b → ∃ B, s.bufs b = some B) :
    ∃ s', assignFrom s i src = .ok s' ∧ Refs s' (fun b => cnt s' b + e b) ∧ s'.strs = s.strs.set i o ∧ s'.its = s.its ∧
      s'.nextG = s.nextG ∧ s'.next = s.next ∧ Keep s s' := by
  obtain ⟨s1, e1, r1, m1⟩ := addRef_ok h o hl
  have hv : var s1 i = var s i := by simp [var, m1.strs]
  have r1' : Refs s1 (fun b => (cnt (setVar s i o) b + e b) + one (var s1 i) b) := by
    refine r1.congr ?_
    intro b
    have := cnt_setVar hi o b
    rw [hv]
    omega
  obtain ⟨s2, e2, r2, m2⟩ := release_ok _ r1'
  have hst : s2.strs = s.strs := by rw [m2.strs, m1.strs]
  have hit : s2.its = s.its := by rw [m2.its, m1.its]
  refine ⟨setVar (setVar s2 i none) i o, ?_, ?_, by simp [setVar, hst], by simp [setVar, hit], by simp [setVar, m2.ng, m1.ng],
    by simp [setVar, m2.next, m1.next], ?_⟩
  · have h0 : src s = o := hs s (Or.inl rfl)
    have h2 : src (setVar s2 i none) = o := hs _ (Or.inr (by simp [setVar, hst]))
    simp [assignFrom, h0, e1, e2, h2, bind, Except.bind]
  · refine Refs.congr (f := fun b => cnt (setVar s i o) b + e b) r2 ?_
    intro b
    have : cnt (setVar (setVar s2 i none) i o) b = cnt (setVar s i o) b := cnt_congr (by simp [setVar, hst]) (by simp [setVar, hit]) b
    omega
  · exact m1.keep.trans m2.keep

/-! ## The relation -/

def zero (c : Cfg) : List Nat := if c.z then [0] else []

theorem zero_length (c : Cfg) : (zero c).length = c.zl := by
  simp only [zero, Cfg.zl]; split <;> rfl

def VarOk (c : Cfg) (s : St) : V → Option Nat → Prop
  | .nil, o => o = none
  | .done t, o => ∃ b B, o = some b ∧ s.bufs b = some B ∧ B.chars = t ++ zero c ∧ ∀ p, some p ∈ s.its → p.2 ≠ b
  | .opn g, o => ∃ b, o = some b ∧ some (g, b) ∈ s.its

structure Txt (c : Cfg) (s : St) (a : Sp) : Prop where
  lenV : s.strs.length = a.vars.length
  vars : ∀ i v, a.vars[i]? = some v → VarOk c s v (var s i)
  its : s.its.map (Option.map Prod.fst) = a.its
  itOk : ∀ g b, some (g, b) ∈ s.its → g < s.nextG ∧ ∃ B, s.bufs b = some B ∧ B.chars = a.txt g ∧ B.cap = a.cap g + c.zl ∧
    (a.txt g).length ≤ a.cap g
  uniq : ∀ g b g' b', some (g, b) ∈ s.its → some (g', b') ∈ s.its → (g = g' ↔ b = b')
  mem : ∀ b B, s.bufs b = some B → B.bytes = 40 + B.cap * c.w ∧ B.chars.length ≤ B.cap ∧ 40 + B.cap * c.w < 2 ^ 64
  ng : s.nextG = a.nextG

def R (c : Cfg) (s : St) (a : Sp) : Prop := Refs s (cnt s) ∧ Txt c s a

/-- Buffers that are held keep what a variable sees. -/
theorem VarOk.keep {c : Cfg} {s s' : St} {v : V} {o : Option Nat} (h : VarOk c s v o) (hk : Keep s s') (hi : s'.its = s.its)
    (hl : ∀ b, o = some b → ∃ B, s'.bufs b = some B) : VarOk c s' v o := by
  cases v with
  | nil => exact h
  | done t =>
    obtain ⟨b, B, e, hB, hc, hn⟩ := h
    obtain ⟨B', hB'⟩ := hl b e
    obtain ⟨B2, h2, _, _, h3⟩ := hk b B' hB'
    rw [hB] at h2
    cases h2
    exact ⟨b, B', e, hB', by rw [← h3, hc], by rw [hi]; exact hn⟩
  | opn g =>
    obtain ⟨b, e, hm⟩ := h
    exact ⟨b, e, by rw [hi]; exact hm⟩

theorem var_set {s s' : St} {i : Nat} {o : Option Nat} (hs : s'.strs = s.strs.set i o) (hi : i < s.strs.length) (m : Nat) :
    var s' m = if i = m then o else var s m := by
  simp only [var, hs, List.getElem?_set, hi, if_true]
  split <;> rfl

/-- Replacing a variable. -/
theorem Txt.setVar {c : Cfg} {s s' : St} {a : Sp} {i : Nat} {o : Option Nat} {v : V} {e : Nat → Nat} (h : Txt c s a) (hv : VarOk c s v o)
    (hi : i < s.strs.length) (r : Refs s' (fun b => cnt s' b + e b)) (hs : s'.strs = s.strs.set i o) (ht : s'.its = s.its)
    (hg : s'.nextG = s.nextG) (hk : Keep s s') : Txt c s' { a with vars := a.vars.set i v } := by
  have live : ∀ m b, var s' m = some b → ∃ B, s'.bufs b = some B := by
    intro m b hb
    exact r.live (by have := cnt_var hb; omega)
  refine ⟨by simp [hs, h.lenV], ?_, by rw [ht]; exact h.its, ?_, by rw [ht]; exact h.uniq, ?_, by rw [hg]; exact h.ng⟩
  · intro m w hw
    rw [List.getElem?_set] at hw
    have hm := var_set hs hi m
    by_cases hmi : i = m
    · rw [if_pos hmi] at hw hm
      rw [if_pos (by rw [← h.lenV]; omega)] at hw
      cases hw
      rw [hm]
      exact hv.keep hk ht (by intro b hb; exact live m b (by rw [hm, hb]))
    · rw [if_neg hmi] at hw hm
      rw [hm]
      exact (h.vars m w hw).keep hk ht (by intro b hb; exact live m b (by rw [hm, hb]))
  · intro g b hb
    have hb' : some (g, b) ∈ s.its := by rw [← ht]; exact hb
    obtain ⟨h1, B, hB, h2, h3, h4⟩ := h.itOk g b hb'
    obtain ⟨B', hB'⟩ := r.live (b := b) (by have := cnt_it hb; omega)
    obtain ⟨B2, e2, k1, k2, k3⟩ := hk b B' hB'
    rw [hB] at e2
    cases e2
    exact ⟨by rw [hg]; exact h1, B', hB', by rw [← k3, h2], by rw [← k1, h3], h4⟩
  · intro b B hB
    obtain ⟨B2, e2, k1, k2, k3⟩ := hk b B hB
    have := h.mem b B2 e2
    rw [k1, k2, k3] at this
    exact this

theorem VarOk.live {c : Cfg} {s : St} {a : Sp} (h : Txt c s a) {v : V} {o : Option Nat} (hv : VarOk c s v o) (b : Nat) (hb : o = some b) :
    ∃ B, s.bufs b = some B := by
  cases v with
  | nil => rw [hv] at hb; cases hb
  | done t => obtain ⟨b', B, e, hB, _⟩ := hv; rw [e] at hb; cases hb; exact ⟨B, hB⟩
  | opn g =>
    obtain ⟨b', e, hm⟩ := hv
    rw [e] at hb; cases hb
    obtain ⟨_, B, hB, _⟩ := h.itOk g b hm
    exact ⟨B, hB⟩

theorem lt_of_get {α : Type} {l : List α} {i : Nat} {x : α} (h : l[i]? = some x) : i < l.length := by
  rw [List.getElem?_eq_some_iff] at h
  exact h.1

theorem assign_ok {c : Cfg} {s : St} {a : Sp} (h : R c s a) {i j : Nat} {v : V} (hi : i < a.vars.length) (hj : a.vars[j]? = some v)
    (hij : i ≠ j) : ∃ s', assign s i j = .ok s' ∧ R c s' { a with vars := a.vars.set i v } := by
  have hi' : i < s.strs.length := by rw [h.2.lenV]; exact hi
  have hv := h.2.vars j v hj
  obtain ⟨s', e, r, q1, q2, q3, q4, q5⟩ := assignFrom_ok (e := fun _ => 0) (h.1.congr (fun b => rfl)) hi' (fun s => var s j) (var s j)
    (by
      intro s1 h1
      rcases h1 with h1 | h1
      · simp [var, h1]
      · simp only [var, h1, List.getElem?_set_ne hij])
    (fun b hb => hv.live h.2 b hb)
  exact ⟨s', e, r.congr (fun b => rfl), h.2.setVar hv hi' r q1 q2 q3 q5⟩

theorem clear_ok {c : Cfg} {s : St} {a : Sp} (h : R c s a) {i : Nat} (hi : i < a.vars.length) :
    ∃ s', clear s i = .ok s' ∧ R c s' { a with vars := a.vars.set i .nil } := by
  have hi' : i < s.strs.length := by rw [h.2.lenV]; exact hi
  have r1 : Refs s (fun b => cnt (setVar s i none) b + one (var s i) b) := by
    refine h.1.congr ?_
    intro b
    have := cnt_setVar hi' none b
    rw [one_none] at this
    omega
  obtain ⟨s1, e1, r, m⟩ := release_ok _ r1
  have r' : Refs (setVar s1 i none) (fun b => cnt (setVar s1 i none) b + 0) := by
    refine Refs.congr (f := cnt (setVar s i none)) r ?_
    intro b
    exact cnt_congr (by simp [setVar, m.strs]) (by simp [setVar, m.its]) b
  refine ⟨setVar s1 i none, by simp [clear, e1, bind, Except.bind], r'.congr (fun b => rfl), ?_⟩
  exact h.2.setVar (v := .nil) (o := none) rfl hi' r' (by simp [setVar, m.strs]) (by simp [setVar, m.its]) (by simp [setVar, m.ng]) m.keep

/-! ## New buffers -/

theorem u64_small {n : Nat} (h : n < 2 ^ 64) : u64 n = n := Nat.mod_eq_of_lt h

theorem alloc_refs (c : Cfg) {s : St} (h : Refs s (cnt s)) (cap : Nat) (xs : List Nat) :
    Refs (alloc c s cap xs) (fun b => cnt (alloc c s cap xs) b + one (some s.next) b) := by
  have h0 : cnt s s.next = 0 := by
    cases e : s.bufs s.next with
    | none => exact h.2 _ e
    | some B => have := h.1 _ _ e; omega
  have hc : ∀ b, cnt (alloc c s cap xs) b = cnt s b := fun b => cnt_congr rfl rfl b
  have h1 : one (some s.next) s.next = 1 := by simp [one]
  have hn : ∀ x, x ≠ s.next → one (some s.next) x = 0 := by
    intro x e; simp only [one]; rw [if_neg]; intro q; cases q; exact e rfl
  constructor
  · intro b B hB
    simp only [alloc, upd] at hB
    split at hB
    · rename_i e
      subst e
      cases hB
      show 1 = cnt (alloc c s cap xs) s.next + one (some s.next) s.next ∧ 0 < cnt (alloc c s cap xs) s.next + one (some s.next) s.next ∧ s.next < s.next + 1
      rw [hc, h0, h1]
      omega
    · rename_i e
      have := h.1 b B hB
      show B.refs = cnt (alloc c s cap xs) b + one (some s.next) b ∧ 0 < cnt (alloc c s cap xs) b + one (some s.next) b ∧ b < s.next + 1
      rw [hc, hn b e]
      omega
  · intro b hb
    simp only [alloc, upd] at hb
    split at hb
    · cases hb
    · rename_i e
      have := h.2 b hb
      show cnt (alloc c s cap xs) b + one (some s.next) b = 0
      rw [hc, hn b e]
      omega

theorem alloc_get (c : Cfg) (s : St) (cap : Nat) (xs : List Nat) :
    (alloc c s cap xs).bufs s.next = some ⟨cap, u64 (40 + cap * c.w), 1, xs⟩ := by
  simp [alloc, upd]

theorem alloc_old (c : Cfg) {s : St} {f : Nat → Nat} (h : Refs s f) (cap : Nat) (xs : List Nat) {b : Nat} {B : Buf} (hb : s.bufs b = some B) :
    (alloc c s cap xs).bufs b = some B := by
  have := (h.1 b B hb).2.2
  simp only [alloc, upd]
  rw [if_neg (by omega), hb]

theorem alloc_txt (c : Cfg) {s : St} {a : Sp} (h : R c s a) (cap : Nat) (xs : List Nat) (h1 : xs.length ≤ cap) (h2 : 40 + cap * c.w < 2 ^ 64) :
    Txt c (alloc c s cap xs) a := by
  refine ⟨h.2.lenV, ?_, h.2.its, ?_, h.2.uniq, ?_, h.2.ng⟩
  · intro i v hv
    have := h.2.vars i v hv
    cases v with
    | nil => exact this
    | done t =>
      obtain ⟨b, B, e, hB, hc, hn⟩ := this
      exact ⟨b, B, e, alloc_old c h.1 cap xs hB, hc, hn⟩
    | opn g => exact this
  · intro g b hb
    obtain ⟨q1, B, hB, q2⟩ := h.2.itOk g b hb
    exact ⟨q1, B, alloc_old c h.1 cap xs hB, q2⟩
  · intro b B hB
    simp only [alloc, upd] at hB
    split at hB
    · cases hB
      exact ⟨u64_small h2, h1, h2⟩
    · exact h.2.mem b B hB

/-! ## Isolation and changing characters -/

theorem set_same {α : Type} {l : List α} {i : Nat} {x : α} (h : l[i]? = some x) : l.set i x = l := by
  apply List.ext_getElem?
  intro m
  rw [List.getElem?_set]
  by_cases e : i = m
  · subst e; rw [if_pos rfl, if_pos (lt_of_get h), h]
  · rw [if_neg e]

theorem isolate_ok {c : Cfg} {s : St} {a : Sp} (h : R c s a) {i : Nat} {t : List Nat} (hi : a.vars[i]? = some (.done t)) :
    ∃ s' b, isolate c s i = .ok s' ∧ R c s' a ∧ var s' i = some b ∧ cnt s' b = 1 := by
  obtain ⟨b, B, hb, hB, hc, hn⟩ := h.2.vars i _ hi
  have hi' : i < s.strs.length := by rw [h.2.lenV]; exact lt_of_get hi
  have hr := h.1.1 b B hB
  by_cases hs : B.refs > 1
  · have hm := h.2.mem b B hB
    have hlen : 40 + B.chars.length * c.w < 2 ^ 64 := by
      have := Nat.mul_le_mul_right c.w hm.2.1
      omega
    have t1 := alloc_txt c h B.chars.length B.chars (Nat.le_refl _) hlen
    have r1 := alloc_refs c h.1 B.chars.length B.chars
    have g1 := alloc_get c s B.chars.length B.chars
    generalize hs1 : alloc c s B.chars.length B.chars = s1 at t1 r1 g1
    have q1 : s1.strs = s.strs := by rw [← hs1]; rfl
    have q2 : s1.its = s.its := by rw [← hs1]; rfl
    obtain ⟨s2, e2, r2, p1, p2, p3, p4, p5⟩ := assignFrom_ok r1 (by rw [q1]; exact hi') (fun _ => some s.next) (some s.next)
      (fun _ _ => rfl) (by intro x hx; cases hx; exact ⟨_, g1⟩)
    obtain ⟨s3, e3, r3, m3⟩ := release_ok _ r2
    have hv1 : VarOk c s1 (.done t) (some s.next) := by
      refine ⟨s.next, _, rfl, g1, hc, ?_⟩
      intro p hp
      obtain ⟨x, y⟩ := p
      rw [q2] at hp
      obtain ⟨_, X, hX, _⟩ := h.2.itOk x y hp
      have := (h.1.1 y X hX).2.2
      simp only
      omega
    have r3' : Refs s3 (cnt s3) := r3.congr (fun b => (cnt_congr m3.strs m3.its b).symm)
    have T := t1.setVar (e := fun _ => 0) (i := i) hv1 (by rw [q1]; exact hi') (r3'.congr (fun b => rfl)) (by rw [m3.strs, p1])
      (by rw [m3.its, p2]) (by rw [m3.ng, p3]) (p5.trans m3.keep)
    have ha : ({ a with vars := a.vars.set i (.done t) } : Sp) = a := by rw [set_same hi]
    rw [ha] at T
    have hvar : var s3 i = some s.next := by
      have := var_set (s := s) (s' := s3) (i := i) (o := some s.next) (by rw [m3.strs, p1, q1]) hi' i
      rw [this, if_pos rfl]
    refine ⟨s3, s.next, ?_, ⟨r3', T⟩, hvar, ?_⟩
    · simp [isolate, hb, hB, hs, hs1, e2, e3, bind, Except.bind]
    · have c1 := cnt_setVar hi' (some s.next) s.next
      have c2 : cnt s3 s.next = cnt (setVar s i (some s.next)) s.next :=
        cnt_congr (by rw [m3.strs, p1, q1]; rfl) (by rw [m3.its, p2, q2]; rfl) _
      have c3 : cnt s s.next = 0 := by
        cases e : s.bufs s.next with
        | none => exact h.1.2 _ e
        | some X => have := h.1.1 _ _ e; omega
      have c4 : one (var s i) s.next = 0 := by
        rw [hb]; simp only [one]
        rw [if_neg]
        intro q; cases q; omega
      have c5 : one (some s.next) s.next = 1 := by simp [one]
      omega
  · exact ⟨s, b, by simp [isolate, hb, hB, hs], h, hb, by omega⟩

theorem two_holders {s : St} {i m b : Nat} (hi : var s i = some b) (hm : var s m = some b) (hne : i ≠ m) : 2 ≤ cnt s b := by
  have hil : i < s.strs.length := by
    apply Classical.byContradiction
    intro q
    rw [var, List.getElem?_eq_none (by omega)] at hi
    cases hi
  have h1 := cnt_setVar hil none b
  have h2 : var (setVar s i none) m = some b := by
    rw [var_set (s := s) rfl hil m, if_neg hne, hm]
  have h3 := cnt_var h2
  rw [one_none, hi] at h1
  have : one (some b) b = 1 := by simp [one]
  omega

/-- A new content of a buffer, the same counters. -/
theorem refs_upd {s : St} {f : Nat → Nat} (h : Refs s f) {b : Nat} {B B' : Buf} (hB : s.bufs b = some B) (hr : B'.refs = B.refs) :
    Refs { s with bufs := upd s.bufs b (some B') } f := by
  constructor
  · intro x X hX
    simp only [upd] at hX
    split at hX
    · rename_i e
      subst e
      cases hX
      rw [hr]
      exact h.1 x B hB
    · exact h.1 x X hX
  · intro x hx
    simp only [upd] at hx
    split at hx
    · cases hx
    · exact h.2 x hx

theorem upd_ne {f : Nat → Option Buf} {b x : Nat} {o : Option Buf} (h : x ≠ b) : upd f b o x = f x := by
  simp [upd, h]

theorem upd_eq {f : Nat → Option Buf} {b : Nat} {o : Option Buf} : upd f b o b = o := by
  simp [upd]

theorem poke_ok {c : Cfg} {s : St} {a : Sp} (h : R c s a) {i k x : Nat} {t : List Nat} (hi : a.vars[i]? = some (.done t)) (hk : k < t.length) :
    ∃ s', poke c s i k x = .ok s' ∧ R c s' { a with vars := a.vars.set i (.done (t.set k x)) } := by
  obtain ⟨s1, b, e1, h1, hv, hc⟩ := isolate_ok h hi
  obtain ⟨b', B, hb, hB, ht, hn⟩ := h1.2.vars i _ hi
  rw [hv] at hb
  cases hb
  have hm := h1.2.mem b B hB
  have hlen : k < B.chars.length := by rw [ht, List.length_append]; omega
  have hfit : ¬ (40 + (k + 1) * c.w > B.bytes) := by
    have := Nat.mul_le_mul_right c.w (show k + 1 ≤ B.cap by omega)
    omega
  refine ⟨{ s1 with bufs := upd s1.bufs b (some { B with chars := B.chars.set k x }) }, ?_, ?_, ?_⟩
  · simp [poke, e1, hv, pokeAt, hB, hfit, bind, Except.bind]
  · exact Refs.congr (f := cnt s1) (refs_upd (B' := { B with chars := B.chars.set k x }) h1.1 hB rfl) (fun b => (cnt_congr rfl rfl b).symm)
  · refine ⟨by simp [h1.2.lenV], ?_, h1.2.its, ?_, h1.2.uniq, ?_, h1.2.ng⟩
    · intro m w hw
      rw [List.getElem?_set] at hw
      by_cases hmi : i = m
      · rw [if_pos hmi, if_pos (lt_of_get hi)] at hw
        cases hw
        subst hmi
        refine ⟨b, _, hv, upd_eq, ?_, hn⟩
        simp only [ht]
        rw [List.set_append_left _ _ hk]
      · rw [if_neg hmi] at hw
        have := h1.2.vars m w hw
        cases w with
        | nil => exact this
        | done t' =>
          obtain ⟨b2, B2, q1, q2, q3, q4⟩ := this
          have hne : b2 ≠ b := by
            intro q
            subst q
            have := two_holders hv q1 hmi
            omega
          exact ⟨b2, B2, q1, (upd_ne hne).trans q2, q3, q4⟩
        | opn g => exact this
    · intro g y hy
      obtain ⟨q1, Y, q2, q3⟩ := h1.2.itOk g y hy
      exact ⟨q1, Y, (upd_ne (hn _ hy)).trans q2, q3⟩
    · intro y Y hY
      by_cases q : y = b
      · subst q
        have hY' := upd_eq.symm.trans hY
        cases hY'
        simpa using hm
      · exact h1.2.mem y Y ((upd_ne q).symm.trans hY)

/-! ## Iterators -/

theorem mem_set_ne {α : Type} {l : List α} {k : Nat} {x y z : α} (hk : l[k]? = some z) (hy : y ∈ l) (hne : y ≠ z) : y ∈ l.set k x := by
  rw [List.mem_iff_getElem?] at hy ⊢
  obtain ⟨m, hm⟩ := hy
  refine ⟨m, ?_⟩
  rw [List.getElem?_set_ne, hm]
  intro e
  subst e
  rw [hk] at hm
  cases hm
  exact hne rfl

theorem mem_of_set {α : Type} {l : List α} {k : Nat} {x y : α} (h : y ∈ l.set k x) : y ∈ l ∨ y = x := List.mem_or_eq_of_mem_set h

theorem zl_lt (c : Cfg) (hw : 0 < c.w) {n : Nat} (h : fits c n) : n + c.zl < 2 ^ 64 := by
  have := Nat.le_mul_of_pos_right (n + c.zl) hw
  rw [fits] at h
  omega

theorem open_ok {c : Cfg} (hw : 0 < c.w) {s : St} {a : Sp} (h : R c s a) {i k n : Nat} (hi : i < a.vars.length) (hk : a.its[k]? = some none)
    (hf : fits c n) :
    ∃ s', openIter c s i k n = .ok s' ∧
      R c s' ⟨a.vars.set i (.opn a.nextG), a.its.set k (some a.nextG), fset a.txt a.nextG [], fset a.cap a.nextG n, a.nextG + 1⟩ := by
  have hi' : i < s.strs.length := by rw [h.2.lenV]; exact hi
  have hk' : s.its[k]? = some none := by
    have := h.2.its
    rw [← this, List.getElem?_map] at hk
    cases e : s.its[k]? with
    | none => rw [e] at hk; cases hk
    | some o => rw [e] at hk; cases o with
      | none => rfl
      | some p => simp at hk
  have hz := zl_lt c hw hf
  have hcap : u64 (n + c.zl) = n + c.zl := u64_small hz
  have t1 := alloc_txt c h (n + c.zl) [] (Nat.zero_le _) hf
  have r1 := alloc_refs c h.1 (n + c.zl) []
  have g1 := alloc_get c s (n + c.zl) []
  have hfresh : ∀ g b, some (g, b) ∈ s.its → b ≠ s.next := by
    intro g b hb
    obtain ⟨_, B, hB, _⟩ := h.2.itOk g b hb
    have := (h.1.1 b B hB).2.2
    omega
  generalize hs1 : alloc c s (n + c.zl) [] = s1 at t1 r1 g1
  have q1 : s1.strs = s.strs := by rw [← hs1]; rfl
  have q2 : s1.its = s.its := by rw [← hs1]; rfl
  have q3 : s1.nextG = s.nextG := by rw [← hs1]; rfl
  obtain ⟨s2, e2, r2, p1, p2, p3, p4, p5⟩ := assignFrom_ok r1 (by rw [q1]; exact hi') (fun _ => some s.next) (some s.next)
    (fun _ _ => rfl) (by intro x hx; cases hx; exact ⟨_, g1⟩)
  obtain ⟨s3, e3, r3, m3⟩ := addRef_ok r2 (some s.next) (by
    intro x hx; cases hx
    exact r2.live (by simp [one]))
  have hk3 : s3.its[k]? = some none := by rw [m3.its, p2, q2]; exact hk'
  -- the state with the iterator
  let s4 : St := { setIt s3 k (some (s3.nextG, s.next)) with nextG := s3.nextG + 1 }
  have r4 : Refs s4 (fun b => cnt s4 b + one (some s.next) b) := by
    refine Refs.congr (f := fun b => cnt s2 b + one (some s.next) b + one (some s.next) b) ⟨r3.1, r3.2⟩ ?_
    intro b
    have c1 : cnt s4 b = cnt (setIt s3 k (some (s3.nextG, s.next))) b := cnt_congr rfl rfl b
    have c2 := cnt_setIt hk3 (some (s3.nextG, s.next)) b
    have c3 : cnt s3 b = cnt s2 b := cnt_congr m3.strs m3.its b
    simp only [Option.map_none, Option.map_some, one_none] at c2
    omega
  obtain ⟨s5, e5, r5, m5⟩ := release_ok _ r4
  have hst : s5.strs = s.strs.set i (some s.next) := by rw [m5.strs]; show s3.strs = _; rw [m3.strs, p1, q1]
  have hit : s5.its = s.its.set k (some (s.nextG, s.next)) := by
    rw [m5.its]
    show s3.its.set k (some (s3.nextG, s.next)) = _
    rw [m3.its, p2, q2, m3.ng, p3, q3]
  have hng : s5.nextG = s.nextG + 1 := by rw [m5.ng]; show s3.nextG + 1 = _; rw [m3.ng, p3, q3]
  have hkeep : Keep s1 s5 := (p5.trans m3.keep).trans (fun b B hB => by
    obtain ⟨B2, w1, w2⟩ := m5.keep b B hB
    exact ⟨B2, w1, w2⟩)
  have r5' : Refs s5 (cnt s5) := r5.congr (fun b => (cnt_congr m5.strs m5.its b).symm)
  have memk : some (s.nextG, s.next) ∈ s5.its := by
    rw [hit]
    exact List.mem_iff_getElem?.mpr ⟨k, by rw [List.getElem?_set, if_pos rfl, if_pos (lt_of_get hk')]⟩
  have memold : ∀ p, some p ∈ s.its → some p ∈ s5.its := by
    intro p hp
    rw [hit]
    exact mem_set_ne hk' hp (by simp)
  have back : ∀ g b, some (g, b) ∈ s5.its → some (g, b) ∈ s.its ∨ (g = s.nextG ∧ b = s.next) := by
    intro g b hb
    rw [hit] at hb
    rcases mem_of_set hb with hb | hb
    · exact Or.inl hb
    · cases hb; exact Or.inr ⟨rfl, rfl⟩
  have live : ∀ m b, var s5 m = some b → ∃ B, s5.bufs b = some B := fun m b hb => r5'.live (cnt_var hb)
  refine ⟨s5, ?_, r5', ?_⟩
  · have e5' : release { setIt s3 k (some (s3.nextG, s.next)) with nextG := s3.nextG + 1 } (some s.next) = .ok s5 := e5
    have e5'' : release { setIt s3 k (some (s3.nextG, s.next)) with nextG := (setIt s3 k (some (s3.nextG, s.next))).nextG + 1 } (some s.next) = .ok s5 := e5
    simp only [openIter, hcap, hs1, e2, e3, bind, Except.bind]
    exact e5''
  · refine ⟨by simp [hst, h.2.lenV], ?_, ?_, ?_, ?_, ?_, by rw [hng, h.2.ng]⟩
    · intro m w hw'
      simp only [List.getElem?_set] at hw'
      have hm := var_set hst hi' m
      by_cases hmi : i = m
      · rw [if_pos hmi] at hw' hm
        rw [if_pos (by omega)] at hw'
        cases hw'
        exact ⟨s.next, hm, by rw [← h.2.ng]; exact memk⟩
      · rw [if_neg hmi] at hw' hm
        have hv := h.2.vars m w hw'
        cases w with
        | nil => rw [hm]; exact hv
        | done t =>
          obtain ⟨b, B, w1, w2, w3, w4⟩ := hv
          obtain ⟨B5, hB5⟩ := live m b (by rw [hm]; exact w1)
          obtain ⟨B1, z1, z2, z3, z4⟩ := hkeep b B5 hB5
          have z5 : s1.bufs b = some B := by rw [← hs1]; exact alloc_old c h.1 _ _ w2
          rw [z5] at z1
          cases z1
          refine ⟨b, B5, by rw [hm]; exact w1, hB5, by rw [← z4, w3], ?_⟩
          intro p hp
          obtain ⟨g, y⟩ := p
          rcases back g y hp with hp | ⟨_, hp⟩
          · exact w4 _ hp
          · have := (h.1.1 b B w2).2.2
            simp only
            omega
        | opn g =>
          obtain ⟨b, w1, w2⟩ := hv
          exact ⟨b, by rw [hm]; exact w1, memold _ w2⟩
    · rw [hit, List.map_set, h.2.its, h.2.ng]
      rfl
    · intro g b hb
      rcases back g b hb with hb' | ⟨w1, w2⟩
      · obtain ⟨z1, B, z2, z3, z4, z5⟩ := h.2.itOk g b hb'
        have hgn : g ≠ a.nextG := by rw [← h.2.ng]; omega
        obtain ⟨B5, hB5⟩ := r5'.live (cnt_it hb)
        obtain ⟨B1, y1, y2, y3, y4⟩ := hkeep b B5 hB5
        have z6 : s1.bufs b = some B := by rw [← hs1]; exact alloc_old c h.1 _ _ z2
        rw [z6] at y1
        cases y1
        refine ⟨by rw [hng]; omega, B5, hB5, ?_, ?_, ?_⟩
        · simp only [fset, if_neg hgn]; rw [← y4, z3]
        · simp only [fset, if_neg hgn]; rw [← y2, z4]
        · simp only [fset, if_neg hgn]; exact z5
      · subst w2
        obtain ⟨B5, hB5⟩ := r5'.live (cnt_it hb)
        obtain ⟨B1, y1, y2, y3, y4⟩ := hkeep s.next B5 hB5
        rw [g1] at y1
        cases y1
        have hgn : g = a.nextG := by rw [← h.2.ng]; exact w1
        refine ⟨by rw [hng]; omega, B5, hB5, ?_, ?_, ?_⟩
        · simp only [fset, if_pos hgn]; rw [← y4]
        · simp only [fset, if_pos hgn]; rw [← y2]
        · simp only [fset, if_pos hgn]; exact Nat.zero_le _
    · intro g b g' b' hb hb'
      rcases back g b hb with w | ⟨w1, w2⟩
      · rcases back g' b' hb' with v | ⟨v1, v2⟩
        · exact h.2.uniq g b g' b' w v
        · have := hfresh g b w
          have := (h.2.itOk g b w).1
          omega
      · rcases back g' b' hb' with v | ⟨v1, v2⟩
        · have := hfresh g' b' v
          have := (h.2.itOk g' b' v).1
          omega
        · omega
    · intro b B hB
      obtain ⟨B1, y1, y2, y3, y4⟩ := hkeep b B hB
      have := t1.mem b B1 y1
      rw [y2, y3, y4] at this
      exact this

theorem it_get {c : Cfg} {s : St} {a : Sp} (h : Txt c s a) {k g : Nat} (hk : a.its[k]? = some (some g)) :
    ∃ b, s.its[k]? = some (some (g, b)) ∧ it s k = some (g, b) ∧ some (g, b) ∈ s.its := by
  rw [← h.its, List.getElem?_map] at hk
  cases e : s.its[k]? with
  | none => rw [e] at hk; cases hk
  | some o =>
    rw [e] at hk
    cases o with
    | none => simp at hk
    | some p =>
      obtain ⟨g', b⟩ := p
      simp at hk
      subst hk
      exact ⟨b, rfl, by simp [it, e], List.mem_iff_getElem?.mpr ⟨k, e⟩⟩

/-- Characters added to the buffer of an iterator. -/
theorem append_txt {c : Cfg} {s : St} {a : Sp} (h : R c s a) {g b : Nat} {B : Buf} (hm : some (g, b) ∈ s.its) (hB : s.bufs b = some B)
    (xs : List Nat) (hx : (a.txt g).length + xs.length ≤ a.cap g) :
    R c { s with bufs := upd s.bufs b (some { B with chars := B.chars ++ xs }) } { a with txt := fset a.txt g (a.txt g ++ xs) } := by
  obtain ⟨q1, B2, q2, q3, q4, q5⟩ := h.2.itOk g b hm
  rw [hB] at q2
  cases q2
  refine ⟨Refs.congr (f := cnt s) (refs_upd (B' := { B with chars := B.chars ++ xs }) h.1 hB rfl) (fun b => (cnt_congr rfl rfl b).symm), h.2.lenV, ?_, h.2.its, ?_, h.2.uniq, ?_, h.2.ng⟩
  · intro m w hw
    have := h.2.vars m w hw
    cases w with
    | nil => exact this
    | done t' =>
      obtain ⟨b2, B2, w1, w2, w3, w4⟩ := this
      have hne : b2 ≠ b := fun q => w4 _ hm q.symm
      exact ⟨b2, B2, w1, (upd_ne hne).trans w2, w3, w4⟩
    | opn g => exact this
  · intro g' y hy
    obtain ⟨z1, Y, z2, z3, z4, z5⟩ := h.2.itOk g' y hy
    have hu := h.2.uniq g' y g b hy hm
    by_cases e : y = b
    · have e' := hu.mpr e
      subst e
      subst e'
      refine ⟨z1, _, upd_eq, ?_, ?_, ?_⟩
      · simp only [fset, if_true]; rw [q3]
      · exact q4
      · simp only [fset, if_true, List.length_append]; exact hx
    · have e' : g' ≠ g := fun q => e (hu.mp q)
      refine ⟨z1, Y, (upd_ne e).trans z2, ?_, z4, ?_⟩
      · simp only [fset, if_neg e']; exact z3
      · simp only [fset, if_neg e']; exact z5
  · intro y Y hY
    have hmem := h.2.mem b B hB
    by_cases q : y = b
    · subst q
      have hY' := upd_eq.symm.trans hY
      cases hY'
      refine ⟨hmem.1, ?_, hmem.2.2⟩
      simp only [List.length_append]
      rw [q3, q4]
      omega
    · exact h.2.mem y Y ((upd_ne q).symm.trans hY)

theorem write_ok {c : Cfg} {s : St} {a : Sp} (h : R c s a) {k g x : Nat} (hk : a.its[k]? = some (some g))
    (hx : (a.txt g).length < a.cap g) :
    ∃ s', write c s k x = .ok s' ∧ R c s' { a with txt := fset a.txt g (a.txt g ++ [x]) } := by
  obtain ⟨b, _, hit, hm⟩ := it_get h.2 hk
  obtain ⟨q1, B, hB, q3, q4, q5⟩ := h.2.itOk g b hm
  have hmem := h.2.mem b B hB
  have hlt : ¬ (B.chars.length ≥ B.cap) := by rw [q3, q4]; omega
  have hfit : ¬ (40 + (B.chars.length + 1) * c.w > B.bytes) := by
    have := Nat.mul_le_mul_right c.w (show B.chars.length + 1 ≤ B.cap by omega)
    omega
  refine ⟨_, ?_, append_txt h hm hB [x] (by simp only [List.length_singleton]; omega)⟩
  simp only [write, hit, addChar, hB, if_neg hlt, if_neg hfit]

theorem sub64_small {a b : Nat} (h : b ≤ a) (ha : a < 2 ^ 64) : sub64 a b = a - b := by
  have : a + 2 ^ 64 - b = (a - b) + 2 ^ 64 := by omega
  rw [sub64, u64, this, Nat.add_mod_right]
  exact Nat.mod_eq_of_lt (by omega)

theorem cap_lt {c : Cfg} (hw : 0 < c.w) {n : Nat} (h : 40 + n * c.w < 2 ^ 64) : n < 2 ^ 64 := by
  have := Nat.le_mul_of_pos_right n hw
  omega

theorem addChars_ok {c : Cfg} (hw : 0 < c.w) {s : St} {b : Nat} {B : Buf} (hB : s.bufs b = some B)
    (hm : B.bytes = 40 + B.cap * c.w ∧ B.chars.length ≤ B.cap ∧ 40 + B.cap * c.w < 2 ^ 64) (xs : List Nat)
    (hx : B.chars.length + xs.length ≤ B.cap) :
    addChars c s b xs = .ok { s with bufs := upd s.bufs b (some { B with chars := B.chars ++ xs }) } := by
  have hc := cap_lt hw hm.2.2
  have e1 : ¬ (u64 (xs.length + B.chars.length) > B.cap) := by rw [u64_small (by omega)]; omega
  have hfit : ¬ (40 + (B.chars.length + xs.length) * c.w > B.bytes) := by
    have := Nat.mul_le_mul_right c.w hx
    omega
  simp only [addChars, hB, if_neg e1]
  rw [if_neg (by
    intro q
    rcases q with q | q
    · omega
    · exact hfit q), List.take_of_length_le (Nat.le_refl _)]

theorem remain_eq {c : Cfg} (hw : 0 < c.w) {B : Buf} {t : List Nat} {n : Nat} (h1 : B.chars = t) (h2 : B.cap = n + c.zl) (h3 : t.length ≤ n)
    (hm : 40 + B.cap * c.w < 2 ^ 64) : getRemain c B = n - t.length := by
  have hc := cap_lt hw hm
  rw [getRemain, h1, sub64_small (by omega) hc, sub64_small (by omega) (by omega), h2]
  omega

theorem blockWrite_ok {c : Cfg} (hw : 0 < c.w) {s : St} {a : Sp} (h : R c s a) {k g : Nat} (xs : List Nat) (all : Bool)
    (hk : a.its[k]? = some (some g)) :
    if (a.txt g).length + xs.length ≤ a.cap g then
      ∃ s', blockWrite c s k xs all = .ok s' ∧ R c s' { a with txt := fset a.txt g (a.txt g ++ xs) }
    else if all then blockWrite c s k xs all = .error .noSpace
    else ∃ s', blockWrite c s k xs all = .ok s' ∧
      R c s' { a with txt := fset a.txt g (a.txt g ++ xs.take (a.cap g - (a.txt g).length)) } := by
  obtain ⟨b, _, hit, hm⟩ := it_get h.2 hk
  obtain ⟨q1, B, hB, q3, q4, q5⟩ := h.2.itOk g b hm
  have hmem := h.2.mem b B hB
  have hrem := remain_eq hw q3 q4 q5 hmem.2.2
  by_cases hfit : (a.txt g).length + xs.length ≤ a.cap g
  · rw [if_pos hfit]
    refine ⟨_, ?_, append_txt h hm hB xs hfit⟩
    have e : ¬ (xs.length > getRemain c B) := by rw [hrem]; omega
    simp only [blockWrite, hit, hB, if_neg e]
    exact addChars_ok hw hB hmem xs (by rw [q3, q4]; omega)
  · rw [if_neg hfit]
    have e : xs.length > getRemain c B := by rw [hrem]; omega
    cases all with
    | true =>
      rw [if_pos rfl]
      simp only [blockWrite, hit, hB, if_pos e, if_true]
    | false =>
      rw [if_neg (by simp)]
      refine ⟨_, ?_, append_txt h hm hB _ (by rw [List.length_take]; omega)⟩
      have e2 := addChars_ok hw hB hmem (xs.take (a.cap g - (a.txt g).length)) (by rw [q3, q4, List.length_take]; omega)
      rw [blockWrite, hit]
      simp only [hB]
      rw [if_pos e, if_neg (by simp), hrem]
      exact e2

/-- A second iterator of the family. -/
theorem dup_ok {c : Cfg} {s : St} {a : Sp} (h : R c s a) {k k' g : Nat} (hk : a.its[k]? = some (some g)) (hk' : a.its[k']? = some none) :
    ∃ s', dupIter s k k' = .ok s' ∧ R c s' { a with its := a.its.set k' (some g) } := by
  obtain ⟨b, _, hit, hm⟩ := it_get h.2 hk
  obtain ⟨q1, B, hB, q3, q4, q5⟩ := h.2.itOk g b hm
  have hk2 : s.its[k']? = some none := by
    rw [← h.2.its, List.getElem?_map] at hk'
    cases e : s.its[k']? with
    | none => rw [e] at hk'; cases hk'
    | some o => rw [e] at hk'; cases o with
      | none => rfl
      | some p => simp at hk'
  obtain ⟨s1, e1, r1, m1⟩ := addRef_ok h.1 (some b) (by intro x hx; cases hx; exact ⟨B, hB⟩)
  have hk3 : s1.its[k']? = some none := by rw [m1.its]; exact hk2
  have back : ∀ p, some p ∈ (setIt s1 k' (some (g, b))).its → some p ∈ s.its := by
    intro p hp
    rcases mem_of_set hp with hp | hp
    · rw [m1.its] at hp; exact hp
    · rw [hp]; exact hm
  have fwd : ∀ p, some p ∈ s.its → some p ∈ (setIt s1 k' (some (g, b))).its := by
    intro p hp
    exact mem_set_ne hk3 (by rw [m1.its]; exact hp) (by simp)
  have r2 : Refs (setIt s1 k' (some (g, b))) (cnt (setIt s1 k' (some (g, b)))) := by
    refine Refs.congr (f := fun x => cnt s x + one (some b) x) ⟨r1.1, r1.2⟩ ?_
    intro x
    have c2 := cnt_setIt hk3 (some (g, b)) x
    have c3 : cnt s1 x = cnt s x := cnt_congr m1.strs m1.its x
    simp only [Option.map_none, Option.map_some, one_none] at c2
    omega
  have hv : ∀ m, var (setIt s1 k' (some (g, b))) m = var s m := by intro m; simp [var, setIt, m1.strs]
  refine ⟨setIt s1 k' (some (g, b)), by simp [dupIter, hit, e1, bind, Except.bind], r2, ?_⟩
  refine ⟨by simp [setIt, m1.strs, h.2.lenV], ?_, ?_, ?_, ?_, ?_, by simp [setIt, m1.ng, h.2.ng]⟩
  · intro m w hw
    rw [hv]
    have hvm := h.2.vars m w hw
    cases w with
    | nil => exact hvm
    | done t =>
      obtain ⟨y, Y, w1, w2, w3, w4⟩ := hvm
      obtain ⟨Y', hY'⟩ := r2.live (cnt_var (i := m) (by rw [hv]; exact w1))
      obtain ⟨Y2, z1, z2, z3, z4⟩ := m1.keep y Y' hY'
      rw [w2] at z1
      cases z1
      exact ⟨y, Y', w1, hY', by rw [← z4, w3], fun p hp => w4 p (back p hp)⟩
    | opn g' =>
      obtain ⟨y, w1, w2⟩ := hvm
      exact ⟨y, w1, fwd _ w2⟩
  · simp only [setIt, List.map_set, m1.its, h.2.its]
    rfl
  · intro g' y hy
    obtain ⟨z1, Y, z2, z3, z4, z5⟩ := h.2.itOk g' y (back _ hy)
    obtain ⟨Y', hY'⟩ := r2.live (cnt_it hy)
    obtain ⟨Y2, x1, x2, x3, x4⟩ := m1.keep y Y' hY'
    rw [z2] at x1
    cases x1
    exact ⟨by simp only [setIt, m1.ng]; exact z1, Y', hY', by rw [← x4, z3], by rw [← x2, z4], z5⟩
  · intro g1 b1 g2 b2 h1 h2
    exact h.2.uniq g1 b1 g2 b2 (back _ h1) (back _ h2)
  · intro y Y hY
    obtain ⟨Y2, x1, x2, x3, x4⟩ := m1.keep y Y hY
    have := h.2.mem y Y2 x1
    rw [x2, x3, x4] at this
    exact this

theorem shared_iff {c : Cfg} {s : St} {a : Sp} (h : Txt c s a) (k g : Nat) : shared s k g = true ↔ some g ∈ a.its.set k none := by
  have e : a.its.set k none = (s.its.set k none).map (Option.map Prod.fst) := by rw [List.map_set, h.its]; rfl
  rw [e, shared, List.any_eq_true, List.mem_map]
  constructor
  · rintro ⟨x, h1, h2⟩; exact ⟨x, h1, by simpa using h2⟩
  · rintro ⟨x, h1, h2⟩; exact ⟨x, h1, by simpa using h2⟩

/-- An iterator that is not the last one goes away. -/
theorem drop_shared {c : Cfg} {s : St} {a : Sp} (h : R c s a) {k g : Nat} (hk : a.its[k]? = some (some g)) (hs : some g ∈ a.its.set k none) :
    ∃ s', dropIter c s k = .ok s' ∧ R c s' { a with its := a.its.set k none } := by
  obtain ⟨b, hkb, hit, hm⟩ := it_get h.2 hk
  have hsh := (shared_iff h.2 k g).mpr hs
  have r1 : Refs (setIt s k none) (fun x => cnt (setIt s k none) x + one (some b) x) := by
    refine Refs.congr (f := cnt s) ⟨h.1.1, h.1.2⟩ ?_
    intro x
    have := cnt_setIt hkb none x
    simp only [Option.map_none, Option.map_some, one_none] at this
    omega
  obtain ⟨s1, e1, r2, m1⟩ := release_ok _ r1
  have r2' : Refs s1 (cnt s1) := r2.congr (fun x => (cnt_congr m1.strs m1.its x).symm)
  have hits : s1.its = s.its.set k none := m1.its
  have hstrs : s1.strs = s.strs := m1.strs
  have hkeep : Keep s s1 := m1.keep
  have back : ∀ p, some p ∈ s1.its → some p ∈ s.its := by
    intro p hp
    rw [hits] at hp
    rcases mem_of_set hp with hp | hp
    · exact hp
    · cases hp
  have fwd : ∀ g' y, some (g', y) ∈ s.its → some (g', y) ∈ s1.its := by
    intro g' y hy
    rw [hits]
    by_cases e : g' = g
    · subst e
      rw [← h.2.its] at hs
      have e : (s.its.map (Option.map Prod.fst)).set k none = (s.its.set k none).map (Option.map Prod.fst) := by rw [List.map_set]; rfl
      rw [e, List.mem_map] at hs
      obtain ⟨o, ho, ho'⟩ := hs
      cases o with
      | none => cases ho'
      | some p =>
        obtain ⟨g2, y2⟩ := p
        simp at ho'
        subst ho'
        have h2 : some (g2, y2) ∈ s.its := by
          rcases mem_of_set ho with q | q
          · exact q
          · cases q
        have := (h.2.uniq g2 y g2 y2 hy h2).mp rfl
        rw [this]
        exact ho
    · exact mem_set_ne hkb hy (by intro q; cases q; exact e rfl)
  have hv : ∀ m, var s1 m = var s m := by intro m; simp [var, hstrs]
  refine ⟨s1, ?_, r2', by rw [hstrs]; exact h.2.lenV, ?_, ?_, ?_, ?_, ?_, by rw [m1.ng]; exact h.2.ng⟩
  · simp only [dropIter, hit, hsh, bind, Except.bind]
    exact e1
  · intro m w hw
    rw [hv]
    have hvm := h.2.vars m w hw
    cases w with
    | nil => exact hvm
    | done t =>
      obtain ⟨y, Y, w1, w2, w3, w4⟩ := hvm
      obtain ⟨Y', hY'⟩ := r2'.live (cnt_var (i := m) (by rw [hv]; exact w1))
      obtain ⟨Y2, z1, z2, z3, z4⟩ := hkeep y Y' hY'
      rw [w2] at z1
      cases z1
      exact ⟨y, Y', w1, hY', by rw [← z4, w3], fun p hp => w4 p (back p hp)⟩
    | opn g' =>
      obtain ⟨y, w1, w2⟩ := hvm
      exact ⟨y, w1, fwd _ _ w2⟩
  · rw [hits, List.map_set, h.2.its]; rfl
  · intro g' y hy
    obtain ⟨z1, Y, z2, z3, z4, z5⟩ := h.2.itOk g' y (back _ hy)
    obtain ⟨Y', hY'⟩ := r2'.live (cnt_it hy)
    obtain ⟨Y2, x1, x2, x3, x4⟩ := hkeep y Y' hY'
    rw [z2] at x1
    cases x1
    exact ⟨by rw [m1.ng]; exact z1, Y', hY', by rw [← x4, z3], by rw [← x2, z4], z5⟩
  · intro g1 b1 g2 b2 h1 h2
    exact h.2.uniq g1 b1 g2 b2 (back _ h1) (back _ h2)
  · intro y Y hY
    obtain ⟨Y2, x1, x2, x3, x4⟩ := hkeep y Y hY
    have := h.2.mem y Y2 x1
    rw [x2, x3, x4] at this
    exact this

/-- The zero is written by the last iterator. -/
theorem zero_ok {c : Cfg} {s : St} {a : Sp} (h : R c s a) {k g b : Nat} {B : Buf} (hit : it s k = some (g, b)) (hB : s.bufs b = some B)
    (hc : B.chars = a.txt g) (hcap : B.cap = a.cap g + c.zl) (hle : (a.txt g).length ≤ a.cap g) :
    (if c.z then write c s k 0 else .ok s) = .ok { s with bufs := upd s.bufs b (some { B with chars := B.chars ++ zero c }) } := by
  have hmem := h.2.mem b B hB
  cases hz : c.z with
  | false =>
    have : upd s.bufs b (some { B with chars := B.chars ++ zero c }) = s.bufs := by
      funext x
      by_cases e : x = b
      · subst e; rw [upd_eq, hB]; simp [zero, hz]
      · rw [upd_ne e]
    rw [this]
    rfl
  | true =>
    have hz1 : c.zl = 1 := by simp [Cfg.zl, hz]
    have hlt : ¬ (B.chars.length ≥ B.cap) := by rw [hc, hcap]; omega
    have hfit : ¬ (40 + (B.chars.length + 1) * c.w > B.bytes) := by
      have := Nat.mul_le_mul_right c.w (show B.chars.length + 1 ≤ B.cap by omega)
      omega
    simp only [if_true, write, hit, addChar, hB, if_neg hlt, if_neg hfit, zero, hz]

/-- The last iterator goes away: the text is complete. -/
theorem drop_last {c : Cfg} {s : St} {a : Sp} (h : R c s a) {k g : Nat} (hk : a.its[k]? = some (some g)) (hs : ¬ some g ∈ a.its.set k none) :
    ∃ s', dropIter c s k = .ok s' ∧ R c s' { a with its := a.its.set k none, vars := a.vars.map (finish g (a.txt g)) } := by
  obtain ⟨b, hkb, hit, hm⟩ := it_get h.2 hk
  obtain ⟨q1, B, hB, q3, q4, q5⟩ := h.2.itOk g b hm
  have hsh : shared s k g = false := by
    cases e : shared s k g with
    | false => rfl
    | true => exact absurd ((shared_iff h.2 k g).mp e) hs
  have hz := zero_ok h hit hB q3 q4 q5
  have hmem := h.2.mem b B hB
  have r0 := refs_upd (B' := { B with chars := B.chars ++ zero c }) h.1 hB rfl
  generalize hs0 : ({ s with bufs := upd s.bufs b (some { B with chars := B.chars ++ zero c }) } : St) = s0 at hz r0
  have hb0 : s0.bufs b = some { B with chars := B.chars ++ zero c } := by rw [← hs0]; exact upd_eq
  have hbn : ∀ y, y ≠ b → s0.bufs y = s.bufs y := by intro y hy; rw [← hs0]; exact upd_ne hy
  have hi0 : s0.its = s.its := by rw [← hs0]
  have hv0 : s0.strs = s.strs := by rw [← hs0]
  have hg0 : s0.nextG = s.nextG := by rw [← hs0]
  have r1 : Refs (setIt s0 k none) (fun x => cnt (setIt s0 k none) x + one (some b) x) := by
    refine Refs.congr (f := cnt s) ⟨r0.1, r0.2⟩ ?_
    intro x
    have := cnt_setIt (s := s0) (by rw [hi0]; exact hkb) none x
    have c3 : cnt s0 x = cnt s x := cnt_congr hv0 hi0 x
    simp only [Option.map_none, Option.map_some, one_none] at this
    omega
  obtain ⟨s1, e1, r2, m1⟩ := release_ok _ r1
  have r2' : Refs s1 (cnt s1) := r2.congr (fun x => (cnt_congr m1.strs m1.its x).symm)
  have hits : s1.its = s.its.set k none := by rw [m1.its]; simp [setIt, hi0]
  have hstrs : s1.strs = s.strs := by rw [m1.strs]; simp [setIt, hv0]
  have hng : s1.nextG = s.nextG := by rw [m1.ng]; simp [setIt, hg0]
  have hkeep : Keep s0 s1 := m1.keep
  have back : ∀ p, some p ∈ s1.its → some p ∈ s.its := by
    intro p hp
    rw [hits] at hp
    rcases mem_of_set hp with hp | hp
    · exact hp
    · cases hp
  have gone : ∀ g' y, some (g', y) ∈ s1.its → g' ≠ g := by
    intro g' y hy e
    subst e
    apply hs
    rw [← h.2.its]
    have e : (s.its.map (Option.map Prod.fst)).set k none = (s.its.set k none).map (Option.map Prod.fst) := by rw [List.map_set]; rfl
    rw [e, List.mem_map]
    exact ⟨some (g', y), by rw [← hits]; exact hy, rfl⟩
  have goneb : ∀ g' y, some (g', y) ∈ s1.its → y ≠ b := by
    intro g' y hy e
    exact gone g' y hy ((h.2.uniq g' y g b (back _ hy) hm).mpr e)
  have fwd : ∀ g' y, some (g', y) ∈ s.its → g' ≠ g → some (g', y) ∈ s1.its := by
    intro g' y hy hne
    rw [hits]
    exact mem_set_ne hkb hy (by intro q; cases q; exact hne rfl)
  have hv : ∀ m, var s1 m = var s m := by intro m; simp [var, hstrs]
  refine ⟨s1, ?_, r2', by simp [hstrs, h.2.lenV], ?_, ?_, ?_, ?_, ?_, by rw [hng]; exact h.2.ng⟩
  · simp only [dropIter, hit, hsh, Bool.not_false, Bool.true_and, bind, Except.bind]
    cases hcz : c.z with
    | true =>
      rw [hcz, if_pos rfl] at hz
      rw [if_pos rfl, hz]
      exact e1
    | false =>
      rw [hcz, if_neg (by simp)] at hz
      cases hz
      rw [if_neg (by simp)]
      exact e1
  · intro m w hw
    rw [List.getElem?_map] at hw
    cases hw0 : a.vars[m]? with
    | none => rw [hw0] at hw; cases hw
    | some w0 =>
      rw [hw0] at hw
      simp only [Option.map_some, Option.some.injEq] at hw
      rw [hv]
      have hvm := h.2.vars m w0 hw0
      cases w0 with
      | nil =>
        simp only [finish, reduceCtorEq, if_false] at hw
        subst hw
        exact hvm
      | done t =>
        simp only [finish, reduceCtorEq, if_false] at hw
        subst hw
        obtain ⟨y, Y, w1, w2, w3, w4⟩ := hvm
        have hne : y ≠ b := fun e => w4 _ hm e.symm
        obtain ⟨Y', hY'⟩ := r2'.live (cnt_var (i := m) (by rw [hv]; exact w1))
        obtain ⟨Y2, z1, z2, z3, z4⟩ := hkeep y Y' hY'
        rw [hbn y hne, w2] at z1
        cases z1
        exact ⟨y, Y', w1, hY', by rw [← z4, w3], fun p hp => w4 p (back p hp)⟩
      | opn g' =>
        obtain ⟨y, w1, w2⟩ := hvm
        by_cases e : g' = g
        · subst e
          simp only [finish, if_true] at hw
          subst hw
          have hy : y = b := (h.2.uniq g' y g' b w2 hm).mp rfl
          subst hy
          obtain ⟨Y', hY'⟩ := r2'.live (cnt_var (i := m) (by rw [hv]; exact w1))
          obtain ⟨Y2, z1, z2, z3, z4⟩ := hkeep y Y' hY'
          rw [hb0] at z1
          cases z1
          refine ⟨y, Y', w1, hY', ?_, fun p hp => goneb p.1 p.2 hp⟩
          rw [← z4]
          simp only [q3]
        · have : V.opn g' ≠ V.opn g := fun q => e (V.opn.inj q)
          simp only [finish, if_neg this] at hw
          subst hw
          exact ⟨y, w1, fwd _ _ w2 e⟩
  · rw [hits, List.map_set, h.2.its]; rfl
  · intro g' y hy
    obtain ⟨z1, Y, z2, z3, z4, z5⟩ := h.2.itOk g' y (back _ hy)
    obtain ⟨Y', hY'⟩ := r2'.live (cnt_it hy)
    obtain ⟨Y2, x1, x2, x3, x4⟩ := hkeep y Y' hY'
    rw [hbn y (goneb g' y hy), z2] at x1
    cases x1
    exact ⟨by rw [hng]; exact z1, Y', hY', by rw [← x4, z3], by rw [← x2, z4], z5⟩
  · intro g1 b1 g2 b2 h1 h2
    exact h.2.uniq g1 b1 g2 b2 (back _ h1) (back _ h2)
  · intro y Y hY
    obtain ⟨Y2, x1, x2, x3, x4⟩ := hkeep y Y hY
    by_cases e : y = b
    · subst e
      rw [hb0] at x1
      cases x1
      simp only at x2 x3 x4
      rw [← x2, ← x3, ← x4]
      refine ⟨hmem.1, ?_, hmem.2.2⟩
      rw [List.length_append, q3, q4, zero_length]
      omega
    · rw [hbn y e] at x1
      have := h.2.mem y Y2 x1
      rw [x2, x3, x4] at this
      exact this

/-! ## Loading a text -/

/-- Only the families of existing iterators matter. -/
theorem Txt.congr {c : Cfg} {s : St} {a a' : Sp} (h : Txt c s a) (h1 : a'.vars = a.vars) (h2 : a'.its = a.its) (h3 : a'.nextG = a.nextG)
    (h4 : ∀ g, some g ∈ a.its → a'.txt g = a.txt g ∧ a'.cap g = a.cap g) : Txt c s a' := by
  refine ⟨by rw [h1]; exact h.lenV, by rw [h1]; exact h.vars, by rw [h2]; exact h.its, ?_, h.uniq, h.mem, by rw [h3]; exact h.ng⟩
  intro g b hb
  have hg : some g ∈ a.its := by
    rw [← h.its]
    exact List.mem_map.mpr ⟨_, hb, rfl⟩
  rw [(h4 g hg).1, (h4 g hg).2]
  exact h.itOk g b hb

theorem cnt_slot (s : St) (b : Nat) : cnt { s with its := s.its ++ [none] } b = cnt s b := by
  simp [cnt]

theorem slot_ok {c : Cfg} {s : St} {a : Sp} (h : R c s a) : R c { s with its := s.its ++ [none] } { a with its := a.its ++ [none] } := by
  have hm : ∀ p, some p ∈ s.its ++ [none] ↔ some p ∈ s.its := by intro p; simp
  refine ⟨Refs.congr (f := cnt s) ⟨h.1.1, h.1.2⟩ (fun b => (cnt_slot s b).symm), h.2.lenV, ?_, ?_, ?_, ?_, h.2.mem, h.2.ng⟩
  · intro m w hw
    have := h.2.vars m w hw
    cases w with
    | nil => exact this
    | done t =>
      obtain ⟨b, B, w1, w2, w3, w4⟩ := this
      exact ⟨b, B, w1, w2, w3, fun p hp => w4 p ((hm p).mp hp)⟩
    | opn g =>
      obtain ⟨b, w1, w2⟩ := this
      exact ⟨b, w1, (hm _).mpr w2⟩
  · simp [h.2.its]
  · intro g b hb
    exact h.2.itOk g b ((hm _).mp hb)
  · intro g b g' b' h1 h2
    exact h.2.uniq g b g' b' ((hm _).mp h1) ((hm _).mp h2)

theorem unslot_ok {c : Cfg} {s : St} {a : Sp} {l : List (Option Nat)} (h : R c s { a with its := l ++ [none] }) :
    R c { s with its := s.its.dropLast } { a with its := l } := by
  have hs : s.its = s.its.dropLast ++ [none] := by
    have hmap := h.2.its
    rcases List.eq_nil_or_concat s.its with e | ⟨q, o, e⟩
    · rw [e] at hmap; simp at hmap
    · rw [e] at hmap ⊢
      simp at hmap
      simp
      exact hmap.2
  have hm : ∀ p, some p ∈ s.its ↔ some p ∈ s.its.dropLast := by
    intro p
    constructor
    · intro hp
      rw [hs] at hp
      simpa using hp
    · intro hp
      rw [hs]
      simp [hp]
  have hc : ∀ b, cnt { s with its := s.its.dropLast } b = cnt s b := by
    intro b
    rw [← cnt_slot { s with its := s.its.dropLast } b]
    exact cnt_congr (s := s) (s' := { s with its := s.its.dropLast ++ [none] }) rfl hs.symm b
  refine ⟨Refs.congr (f := cnt s) ⟨h.1.1, h.1.2⟩ (fun b => (hc b).symm), h.2.lenV, ?_, ?_, ?_, ?_, h.2.mem, h.2.ng⟩
  · intro m w hw
    have := h.2.vars m w hw
    cases w with
    | nil => exact this
    | done t =>
      obtain ⟨b, B, w1, w2, w3, w4⟩ := this
      exact ⟨b, B, w1, w2, w3, fun p hp => w4 p ((hm p).mpr hp)⟩
    | opn g =>
      obtain ⟨b, w1, w2⟩ := this
      exact ⟨b, w1, (hm _).mp w2⟩
  · have := h.2.its
    rw [hs, List.map_append] at this
    exact List.append_cancel_right this
  · intro g b hb
    exact h.2.itOk g b ((hm _).mpr hb)
  · intro g b g' b' h1 h2
    exact h.2.uniq g b g' b' ((hm _).mpr h1) ((hm _).mpr h2)

theorem writes_ok {c : Cfg} : ∀ (xs : List Nat) {s : St} {a : Sp} (_ : R c s a) {k g : Nat} (_ : a.its[k]? = some (some g))
    (_ : (a.txt g).length + xs.length ≤ a.cap g),
    ∃ s', writes c s k xs = .ok s' ∧ R c s' { a with txt := fset a.txt g (a.txt g ++ xs) }
  | [], s, a, h, k, g, hk, hx => by
    refine ⟨s, rfl, h.1, h.2.congr rfl rfl rfl ?_⟩
    intro g' _
    simp only [fset]
    split
    · rename_i e; subst e; simp
    · refine ⟨?_, ?_⟩ <;> first | rfl | trivial
  | x :: xs, s, a, h, k, g, hk, hx => by
    simp only [List.length_cons] at hx
    obtain ⟨s1, e1, h1⟩ := write_ok (x := x) h hk (by omega)
    obtain ⟨s2, e2, h2⟩ := writes_ok xs h1 (k := k) (g := g) hk (by simp only [fset, if_true, List.length_append, List.length_singleton]; omega)
    refine ⟨s2, by simp [writes, e1, e2, bind, Except.bind], h2.1, h2.2.congr rfl rfl rfl ?_⟩
    intro g' _
    simp only [fset]
    split
    · simp
    · refine ⟨?_, ?_⟩ <;> first | rfl | trivial

theorem no_open {c : Cfg} {s : St} {a : Sp} (h : Txt c s a) (m : Nat) : a.vars[m]? ≠ some (.opn a.nextG) := by
  intro e
  obtain ⟨b, _, hb⟩ := h.vars m _ e
  have := (h.itOk _ b hb).1
  rw [h.ng] at this
  omega

theorem load_ok {c : Cfg} (hw : 0 < c.w) {s : St} {a : Sp} (h : R c s a) {i : Nat} {t : List Nat} (hi : i < a.vars.length)
    (hf : fits c t.length) :
    ∃ s', load c s i t = .ok s' ∧ R c s' { a with vars := a.vars.set i (.done t), nextG := a.nextG + 1 } := by
  have h0 := slot_ok h
  have hlen : s.its.length = a.its.length := by rw [← h.2.its, List.length_map]
  have hno := no_open h.2
  have hold : ∀ g, some g ∈ a.its → g ≠ a.nextG := by
    intro g hg e
    rw [← h.2.its, List.mem_map] at hg
    obtain ⟨o, ho, ho'⟩ := hg
    cases o with
    | none => cases ho'
    | some p =>
      obtain ⟨g', b⟩ := p
      simp at ho'
      subst ho'
      have := (h.2.itOk g' b ho).1
      rw [h.2.ng] at this
      omega
  obtain ⟨s1, e1, h1⟩ := open_ok hw (i := i) (k := s.its.length) h0 hi (by simp [hlen]) hf
  have hk1 : ((a.its ++ [none]).set s.its.length (some a.nextG))[s.its.length]? = some (some a.nextG) := by
    rw [List.getElem?_set, if_pos rfl, if_pos (by simp [hlen])]
  obtain ⟨s2, e2, h2⟩ := writes_ok t h1 hk1 (by simp [fset])
  have hset : ((a.its ++ [none]).set s.its.length (some a.nextG)).set s.its.length none = a.its ++ [none] := by
    rw [List.set_set, hlen, List.set_append_right _ _ (Nat.le_refl _)]
    simp
  have hlast : ¬ some a.nextG ∈ ((a.its ++ [none]).set s.its.length (some a.nextG)).set s.its.length none := by
    rw [hset]
    intro hm
    have : some a.nextG ∈ a.its := by simpa using hm
    exact hold _ this rfl
  obtain ⟨s3, e3, h3⟩ := drop_last h2 hk1 hlast
  have ht : fset (fset a.txt a.nextG []) a.nextG ((fset a.txt a.nextG []) a.nextG ++ t) a.nextG = t := by simp [fset]
  have hvars : (a.vars.set i (.opn a.nextG)).map (finish a.nextG t) = a.vars.set i (.done t) := by
    apply List.ext_getElem?
    intro m
    rw [List.getElem?_map, List.getElem?_set, List.getElem?_set]
    by_cases e : i = m
    · rw [if_pos e, if_pos e, if_pos (by omega), if_pos (by omega)]
      simp [finish]
    · rw [if_neg e, if_neg e]
      cases hv : a.vars[m]? with
      | none => rfl
      | some v =>
        have : v ≠ .opn a.nextG := by intro q; rw [q] at hv; exact hno m hv
        simp [finish, this]
  simp only [ht, hvars, hset] at h3
  have h4 := unslot_ok (a := ⟨a.vars.set i (.done t), a.its, fset (fset a.txt a.nextG []) a.nextG (fset a.txt a.nextG [] a.nextG ++ t), fset a.cap a.nextG t.length, a.nextG + 1⟩) h3
  refine ⟨{ s3 with its := s3.its.dropLast }, ?_, h4.1, h4.2.congr rfl rfl rfl ?_⟩
  · simp [load, e1, e2, e3, bind, Except.bind]
  · intro g hg
    have := hold g hg
    simp [fset, this]

/-! ## Histories -/

theorem step_ok {c : Cfg} (hw : 0 < c.w) {s : St} {a a' : Sp} (h : R c s a) {o : Op} (ho : sstep c a o = some a') :
    (∃ s', step c s o = .ok s' ∧ R c s' a') ∨ (step c s o = .error .noSpace ∧ a' = a) := by
  cases o with
  | load i t =>
    simp only [sstep] at ho
    split at ho
    · rename_i q
      cases ho
      exact Or.inl (load_ok hw h q.1 q.2)
    · cases ho
  | assign i j =>
    simp only [sstep] at ho
    split at ho
    · rename_i v w q1 q2
      split at ho
      · cases ho
      · rename_i hij
        cases ho
        exact Or.inl (assign_ok h (lt_of_get q1) q2 hij)
    · cases ho
  | clear i =>
    simp only [sstep] at ho
    split at ho
    · rename_i q
      cases ho
      exact Or.inl (clear_ok h q)
    · cases ho
  | isolate i =>
    simp only [sstep] at ho
    split at ho
    · rename_i q
      cases ho
      have : var s i = none := h.2.vars i _ q
      exact Or.inl ⟨s, by simp [step, isolate, this], h⟩
    · rename_i t q
      cases ho
      obtain ⟨s', b, e, h', _⟩ := isolate_ok h q
      exact Or.inl ⟨s', e, h'⟩
    · cases ho
  | poke i k x =>
    simp only [sstep] at ho
    split at ho
    · rename_i t q
      split at ho
      · rename_i hk
        cases ho
        exact Or.inl (poke_ok h q hk)
      · cases ho
    · cases ho
  | openIter i k n =>
    simp only [sstep] at ho
    split at ho
    · rename_i q
      cases ho
      exact Or.inl (open_ok hw h q.1 q.2.1 q.2.2)
    · cases ho
  | write k x =>
    simp only [sstep] at ho
    split at ho
    · rename_i g q
      split at ho
      · rename_i hk
        cases ho
        exact Or.inl (write_ok h q hk)
      · cases ho
    · cases ho
  | blockWrite k xs all =>
    simp only [sstep] at ho
    split at ho
    · rename_i g q
      have hb := blockWrite_ok hw h xs all q
      split at ho
      · rename_i hf
        cases ho
        rw [if_pos hf] at hb
        exact Or.inl hb
      · rename_i hf
        rw [if_neg hf] at hb
        split at ho
        · rename_i ha
          cases ho
          rw [if_pos ha] at hb
          exact Or.inr ⟨hb, rfl⟩
        · rename_i ha
          cases ho
          rw [if_neg ha] at hb
          exact Or.inl hb
    · cases ho
  | dupIter k k' =>
    simp only [sstep] at ho
    split at ho
    · rename_i g q1 q2
      cases ho
      exact Or.inl (dup_ok h q1 q2)
    · cases ho
  | dropIter k =>
    simp only [sstep] at ho
    split at ho
    · rename_i g q
      split at ho
      · rename_i hm
        cases ho
        exact Or.inl (drop_shared h q hm)
      · rename_i hm
        cases ho
        exact Or.inl (drop_last h q hm)
    · cases ho

theorem run_ok {c : Cfg} (hw : 0 < c.w) : ∀ (os : List Op) {s : St} {a a' : Sp} (_ : R c s a) (_ : srun c a os = some a'),
    ∃ s', run c s os = .ok s' ∧ R c s' a'
  | [], s, a, a', h, ho => by
    cases ho
    exact ⟨s, rfl, h⟩
  | o :: os, s, a, a', h, ho => by
    simp only [srun, Option.bind_eq_some_iff] at ho
    obtain ⟨a1, h1, h2⟩ := ho
    rcases step_ok hw h h1 with ⟨s1, e1, r1⟩ | ⟨e1, q⟩
    · obtain ⟨s', e', r'⟩ := run_ok hw os r1 h2
      exact ⟨s', by simp only [run, e1]; exact e', r'⟩
    · subst q
      obtain ⟨s', e', r'⟩ := run_ok hw os h h2
      exact ⟨s', by simp only [run, e1]; exact e', r'⟩

theorem start_ok (c : Cfg) (nv ni : Nat) : R c (start nv ni) (sstart nv ni) := by
  have hv : ∀ m, var (start nv ni) m = none := by
    intro m
    simp only [var, start, List.getElem?_replicate]
    split <;> rfl
  refine ⟨⟨fun b B h => (by cases h), fun b _ => ?_⟩, by simp [start, sstart], ?_, by simp [start, sstart], ?_, ?_, fun b B h => (by cases h), rfl⟩
  · simp [cnt, start, List.countP_replicate]
  · intro m w hw
    simp only [sstart, List.getElem?_replicate] at hw
    split at hw
    · cases hw; exact hv m
    · cases hw
  · intro g b hb
    have := List.eq_of_mem_replicate hb
    cases this
  · intro g b g' b' hb
    have := List.eq_of_mem_replicate hb
    cases this

/-! ## What a program sees -/

theorem cText_zero : ∀ (t : List Nat), 0 ∉ t → ∀ r, cText (t ++ 0 :: r) = some t
  | [], _, r => rfl
  | x :: t, h, r => by
    simp at h
    rw [List.cons_append, cText, if_neg (fun e => h.1 e.symm), cText_zero t h.2 r]
    rfl

/-- **C134.** Every history of loading, copying, replacing, clearing, isolating and changing strings and of filling
them through iterators (in any number of copies) that keeps the rules ends without undefined behaviour, and then:
a string that holds text `t` in the specification has the length of `t`, the characters of `t` and a zero behind them
when the character type has one, so a reader of `c_str` gets `t`; a nil string is empty; the counter of every
buffer is the number of strings and iterators that hold it, and a buffer nobody holds is freed. -/
theorem C134_strings_partial (c : Cfg) (hw : 0 < c.w) (nv ni : Nat) (os : List Op) (a : Sp)
    (h : srun c (sstart nv ni) os = some a) :
    ∃ s, run c (start nv ni) os = .ok s ∧
      (∀ i t, a.vars[i]? = some (.done t) →
        length c s i = some t.length ∧ (∀ k, k < t.length → charAt s i k = t[k]?) ∧
        (c.z = true → charAt s i t.length = some 0 ∧ (0 ∉ t → cStr c s i = some t))) ∧
      (∀ i, a.vars[i]? = some .nil → length c s i = some 0 ∧ cStr c s i = some []) ∧
      (∀ b B, s.bufs b = some B → B.refs = cnt s b ∧ 0 < cnt s b) ∧
      (∀ b, s.bufs b = none → cnt s b = 0) := by
  obtain ⟨s, e, r⟩ := run_ok hw os (start_ok c nv ni) h
  refine ⟨s, e, ?_, ?_, ?_, r.1.2⟩
  · intro i t ht
    obtain ⟨b, B, hb, hB, hc, _⟩ := r.2.vars i _ ht
    have hm := r.2.mem b B hB
    have hlt := cap_lt hw hm.2.2
    have hlen : length c s i = some t.length := by
      have hl : B.chars.length = t.length + c.zl := by rw [hc, List.length_append, zero_length]
      simp only [length, hb, hB, Option.map_some]
      rw [sub64_small (by omega) (by omega), hl]
      congr 1
      omega
    refine ⟨hlen, ?_, ?_⟩
    · intro k hk
      simp only [charAt, hb, hB, Option.bind_some, hc]
      rw [List.getElem?_append_left hk]
    · intro hz
      have hzero : zero c = [0] := by simp [zero, hz]
      constructor
      · simp only [charAt, hb, hB, Option.bind_some, hc, hzero]
        rw [List.getElem?_append_right (Nat.le_refl _)]
        simp
      · intro h0
        simp only [cStr, hlen]
        cases t with
        | nil => rfl
        | cons x t =>
          simp only [List.length_cons, hb, hB, Option.bind_some, hc, hzero]
          exact cText_zero (x :: t) h0 []
  · intro i hi
    have : var s i = none := r.2.vars i _ hi
    simp [length, cStr, this]
  · intro b B hB
    have := r.1.1 b B hB
    exact ⟨this.1, this.2.1⟩

/-- Nothing is left in the memory when no string and no iterator is left. -/
theorem C134_no_leak_partial (c : Cfg) (hw : 0 < c.w) (nv ni : Nat) (os : List Op) (a : Sp)
    (h : srun c (sstart nv ni) os = some a) (hv : ∀ v ∈ a.vars, v = .nil) (hi : ∀ o ∈ a.its, o = none) :
    ∃ s, run c (start nv ni) os = .ok s ∧ ∀ b, s.bufs b = none := by
  obtain ⟨s, e, r⟩ := run_ok hw os (start_ok c nv ni) h
  refine ⟨s, e, fun b => ?_⟩
  cases hb : s.bufs b with
  | none => rfl
  | some B =>
    have hc := r.1.1 b B hb
    have hz : cnt s b = 0 := by
      rw [cnt, List.countP_eq_zero.mpr, List.countP_eq_zero.mpr]
      · intro o ho
        have : o.map Prod.fst ∈ a.its := by rw [← r.2.its]; exact List.mem_map.mpr ⟨o, ho, rfl⟩
        have := hi _ this
        cases o with
        | none => simp
        | some p => simp at this
      · intro o ho
        obtain ⟨m, hm⟩ := List.mem_iff_getElem?.mp ho
        have hml : m < a.vars.length := by rw [← r.2.lenV]; exact lt_of_get hm
        have hv1 := r.2.vars m a.vars[m] (List.getElem?_eq_getElem hml)
        rw [hv _ (List.getElem_mem hml)] at hv1
        have : var s m = none := hv1
        simp [var, hm] at this
        subst this
        simp
    omega

/-- `blockWrite` of everything throws exactly when the announced length would be exceeded, and `hasItems` tells
whether another character fits. -/
theorem C134_space_partial (c : Cfg) (hw : 0 < c.w) (nv ni : Nat) (os : List Op) (a : Sp) (h : srun c (sstart nv ni) os = some a)
    (k g : Nat) (hk : a.its[k]? = some (some g)) (xs : List Nat) :
    ∃ s, run c (start nv ni) os = .ok s ∧ hasItems c s k = some (decide ((a.txt g).length < a.cap g)) ∧
      (blockWrite c s k xs true = .error .noSpace ↔ a.cap g < (a.txt g).length + xs.length) := by
  obtain ⟨s, e, r⟩ := run_ok hw os (start_ok c nv ni) h
  obtain ⟨b, _, hit, hm⟩ := it_get r.2 hk
  obtain ⟨q1, B, hB, q3, q4, q5⟩ := r.2.itOk g b hm
  have hmem := r.2.mem b B hB
  have hc := cap_lt hw hmem.2.2
  refine ⟨s, e, ?_, ?_⟩
  · simp only [hasItems, hit, Option.bind_some, hB, Option.map_some]
    rw [sub64_small (by omega) hc, q3, q4]
    congr 2
    simp
  · have hb := blockWrite_ok hw r xs true hk
    constructor
    · intro q
      apply Classical.byContradiction
      intro hn
      rw [if_pos (by omega)] at hb
      obtain ⟨s', e', _⟩ := hb
      rw [e'] at q
      cases q
    · intro q
      rw [if_neg (by omega), if_pos rfl] at hb
      exact hb

/-! ## Where the code fails -/

def charCfg : Cfg := ⟨1, true⟩
def wideCfg : Cfg := ⟨4, true⟩
def byteCfg : Cfg := ⟨1, false⟩

/-- An observation after a history. -/
def after {α : Type} (r : Except Err St) (f : St → Option α) : Option α := r.toOption.bind f

/-- Texts, copies, a change of one copy, a text filled through two copies of an iterator while the string is
already shared, and an exception on the way. -/
def demo : List Op :=
  [.load 0 [72, 105], .assign 1 0, .poke 1 0 80, .openIter 2 0 3, .assign 0 2, .write 0 97, .dupIter 0 1, .dropIter 0,
   .blockWrite 1 [98, 99, 100] true, .blockWrite 1 [98, 99, 100] false, .dropIter 1, .clear 2, .isolate 0]

example : (srun charCfg (sstart 3 2) demo).map (·.vars) = some [.done [97, 98, 99], .done [80, 105], .nil] := by decide +kernel

example : after (run charCfg (start 3 2) demo) (fun s => cStr charCfg s 0) = some [97, 98, 99] ∧
    after (run charCfg (start 3 2) demo) (fun s => cStr charCfg s 1) = some [80, 105] := by decide +kernel

/-- Everything is freed in the end. -/
example : (srun charCfg (sstart 3 2) (demo ++ [.clear 0, .clear 1])).map (fun a => (a.vars, a.its)) = some ([.nil, .nil, .nil], [none, none]) := by
  decide +kernel

/-- Bytes have no zero: the length is the number of the bytes. -/
example : after (run byteCfg (start 1 0) [.load 0 [1, 0, 2]]) (fun s => length byteCfg s 0) = some 3 ∧
    after (createBuffer byteCfg (start 1 0) 0 3) (fun s => length byteCfg s 0) = some 3 := by decide +kernel

/-- `createBuffer(3)` of a `char` string: the iterator inside it still holds the buffer, so `data()` copies the
three characters into a buffer without room for the zero, and the zero goes to the buffer nobody will see. The
string has the length 2 and no end. -/
theorem C134_createBuffer_violated :
    after (createBuffer charCfg (start 1 0) 0 3) (fun s => length charCfg s 0) = some 2 ∧
    after (createBuffer charCfg (start 1 0) 0 3) (fun s => charAt s 0 3) = none := by decide +kernel

/-- Filled with three letters, the C string runs over its end. -/
theorem C134_createBuffer_end_violated :
    after (createBuffer charCfg (start 1 0) 0 3 >>= fun s => run charCfg s [.poke 0 0 97, .poke 0 1 98, .poke 0 2 99])
      (fun s => some (cStr charCfg s 0)) = some none := by decide +kernel

/-- `createBuffer(0)`: the length is 2^64 - 1. -/
theorem C134_createBuffer_empty_violated :
    after (createBuffer charCfg (start 1 0) 0 0) (fun s => length charCfg s 0) = some (2 ^ 64 - 1) := by decide +kernel

/-- The length of a string that is being filled: 2^64 - 1 before the first character, later one less than what
has been written. -/
theorem C134_open_length_violated :
    after (run charCfg (start 1 1) [.openIter 0 0 5]) (fun s => length charCfg s 0) = some (2 ^ 64 - 1) ∧
    after (run charCfg (start 1 1) [.openIter 0 0 5, .write 0 97, .write 0 98]) (fun s => length charCfg s 0) = some 1 := by
  decide +kernel

/-- A character is changed (or the string isolated) while it is being filled: what is written later is lost, and so
is the zero. -/
theorem C134_open_isolate_violated :
    after (run charCfg (start 1 1) [.openIter 0 0 3, .write 0 97, .write 0 98, .isolate 0, .write 0 99, .dropIter 0])
      (fun s => length charCfg s 0) = some 1 ∧
    after (run charCfg (start 1 1) [.openIter 0 0 3, .write 0 97, .write 0 98, .isolate 0, .write 0 99, .dropIter 0])
      (fun s => some (cStr charCfg s 0)) = some none := by decide +kernel

/-- One character more than announced: no exception; the character takes the place of the zero. -/
theorem C134_overfull_violated :
    after (run charCfg (start 1 1) [.openIter 0 0 1, .write 0 97, .write 0 98, .dropIter 0]) (fun s => length charCfg s 0) = some 1 ∧
    after (run charCfg (start 1 1) [.openIter 0 0 1, .write 0 97, .write 0 98, .dropIter 0]) (fun s => some (cStr charCfg s 0)) = some none := by
  decide +kernel

/-- `s = s`: the string is nil and its buffer is never freed. -/
theorem C134_self_assign_violated :
    after (run charCfg (start 1 0) [.load 0 [72, 105], .assign 0 0]) (fun s => length charCfg s 0) = some 0 ∧
    after (run charCfg (start 1 0) [.load 0 [72, 105], .assign 0 0]) (fun s => (s.bufs 0).map fun B => (B.refs, cnt s 0)) = some (1, 0) := by
  decide +kernel

/-- A pointer taken by `data()` before the string is copied changes the copy too. -/
theorem C134_pointer_violated :
    after (run charCfg (start 2 0) [.load 0 [72, 105], .isolate 0] >>= fun s =>
      let b := var s 0
      run charCfg s [.assign 1 0] >>= fun s => pokeAt charCfg s (b.getD 0) 0 80) (fun s => cStr charCfg s 1) = some [80, 105] := by
  decide +kernel

/-- The size of the memory is computed in 64 bits: an iterator for 2^62 wide characters gets memory for one, and
the second character is written behind it. -/
theorem C134_size_violated :
    (run wideCfg (start 1 1) [.openIter 0 0 (2 ^ 62), .write 0 97]).toOption.isSome = true ∧
    (match run wideCfg (start 1 1) [.openIter 0 0 (2 ^ 62), .write 0 97, .write 0 98] with
      | .error .ub => true
      | _ => false) = true := by decide +kernel

end LS.StringCore

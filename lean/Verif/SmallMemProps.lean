import Verif.SmallMem
/-!
# C138: memory of containers with room inside

Specification: every block from outside has exactly one object that holds it, it is given back once, to the one who made
it and with its size; an object has room for as many items as it says.
-/

namespace LS.SmallMem

/-- The object holds the block `b`. -/
def holds (b : Nat) (x : Option Mem) : Bool :=
  match x with
  | some x => decide (x.ptr = .heap b)
  | none => false

/-- Bytes an object can use. -/
def room (p : Par) (s : St) (x : Mem) : Nat :=
  match x.ptr with
  | .buf _ => p.cnt * p.tsz
  | .heap b => match s.blk b with
    | some k => k.bytes
    | none => 0
  | _ => 0

/-- Rules: the constructor without count is not used, sizes fit to 64 bits, and `move` does not go to an object with
memory of a runtime allocator. -/
def rule (p : Par) (s : St) : Op → Bool
  | .ctor _ _ => false
  | .ctorN _ _ n => decide (p.tsz * n < W)
  | .copyN _ _ n => decide (p.tsz * n < W)
  | .move _ w => match s.vars[w]? with
    | some (some y) => decide (y.alloc = none) || decide (y.ptr = .buf w)
    | _ => true
  | _ => true

def keeps (p : Par) (s : St) : List Op → Bool
  | [] => true
  | op :: l => rule p s op && (match step p s op with
    | .ok s' => keeps p s' l
    | .error _ => true)

/-- What is known about one object. -/
structure Fine (p : Par) (s : St) (v : Nat) (x : Mem) : Prop where
  set : x.ptr ≠ .unset
  loc : ∀ u, x.ptr = .buf u → u = v ∧ x.size = p.cnt
  null : x.ptr = .null → x.size = 0 ∧ x.alloc = none
  heap : ∀ b, x.ptr = .heap b → s.blk b = some ⟨x.alloc, p.tsz * x.size⟩
  word : p.tsz * x.size < W

structure Inv (p : Par) (s : St) : Prop where
  cnt : ∀ b, s.vars.countP (holds b) = if (s.blk b).isSome then 1 else 0
  fresh : ∀ b, s.next ≤ b → s.blk b = none
  fine : ∀ v x, s.vars[v]? = some (some x) → Fine p s v x

theorem countP_set {α : Type} (f : α → Bool) (x : α) : ∀ (l : List α) (i : Nat) (y : α), l[i]? = some y →
    (l.set i x).countP f + (if f y then 1 else 0) = l.countP f + (if f x then 1 else 0)
  | [], i, y, h => by simp at h
  | a :: l, 0, y, h => by
    simp at h
    subst h
    simp only [List.set_cons_zero, List.countP_cons]
    omega
  | a :: l, i + 1, y, h => by
    have := countP_set f x l i y (by simpa using h)
    simp only [List.set_cons_succ, List.countP_cons]
    omega

def own1 (b : Nat) (x : Option Mem) : Nat := if holds b x then 1 else 0

theorem own1_none (b : Nat) : own1 b none = 0 := rfl
theorem own1_heap (b c n : Nat) (a : Option Nat) : own1 b (some ⟨a, .heap c, n⟩) = if b = c then 1 else 0 := by
  simp [own1, holds, eq_comm]
theorem own1_other {b : Nat} {x : Mem} (h : ∀ c, x.ptr ≠ .heap c) : own1 b (some x) = 0 := by simp [own1, holds, h b]
theorem own1_of {b c : Nat} {x : Mem} (h : x.ptr = .heap c) : own1 b (some x) = if b = c then 1 else 0 := by
  simp [own1, holds, h, eq_comm]

theorem put_count {s : St} {v : Nat} {old : Option Mem} (h : s.vars[v]? = some old) (x : Option Mem) (o : Nat) :
    (s.put v x).vars.countP (holds o) + own1 o old = s.vars.countP (holds o) + own1 o x :=
  countP_set (holds o) x s.vars v old h

theorem get_ok {s : St} {v : Nat} {x : Mem} (h : s.get v = .ok x) : s.vars[v]? = some (some x) := by
  unfold St.get at h
  split at h
  · cases h; assumption
  · cases h

theorem get_of {s : St} {v : Nat} {x : Mem} (h : s.vars[v]? = some (some x)) : s.get v = .ok x := by
  unfold St.get
  rw [h]

theorem free_ok {s : St} {v : Nat} (h : s.free v = .ok ()) : s.vars[v]? = some none := by
  unfold St.free at h
  split at h
  · assumption
  · cases h

theorem mem_of {s : St} {v : Nat} {x : Option Mem} (h : s.vars[v]? = some x) : x ∈ s.vars := List.mem_iff_getElem?.mpr ⟨v, h⟩

theorem put_at {s : St} {v : Nat} {old : Option Mem} (h : s.vars[v]? = some old) (x : Option Mem) : (s.put v x).vars[v]? = some x := by
  rw [List.getElem?_eq_some_iff] at h
  show (s.vars.set v x)[v]? = some x
  rw [List.getElem?_set, if_pos rfl, if_pos h.1]

theorem put_ne {s : St} {v w : Nat} (h : v ≠ w) (x : Option Mem) : (s.put v x).vars[w]? = s.vars[w]? := by
  show (s.vars.set v x)[w]? = s.vars[w]?
  rw [List.getElem?_set_ne h]

theorem put_mem {s : St} {v u : Nat} {x : Option Mem} {y : Mem} (h : (s.put v x).vars[u]? = some (some y)) :
    s.vars[u]? = some (some y) ∨ (u = v ∧ x = some y) := by
  have h' : (s.vars.set v x)[u]? = some (some y) := h
  rw [List.getElem?_set] at h'
  split at h'
  · rename_i e
    split at h'
    · cases h'; exact Or.inr ⟨e.symm, rfl⟩
    · cases h'
  · exact Or.inl h'

theorem isLocal_of {p : Par} {s : St} {v : Nat} {x : Mem} (h : Fine p s v x) : x.isLocal v = .ok (decide (x.ptr = .buf v)) := by
  unfold Mem.isLocal
  cases e : x.ptr with
  | unset => exact absurd e h.set
  | null => simp
  | heap b => simp
  | buf u => simp [(h.loc u e).1]

theorem bind_ok {α β : Type} {m : Except Err α} {f : α → Except Err β} {b : β} (h : (m >>= f) = .ok b) : ∃ a, m = .ok a ∧ f a = .ok b := by
  cases m with
  | ok a => exact ⟨a, rfl, h⟩
  | error e => cases h

/-- Change of one object that keeps its block. -/
theorem inv_put {p : Par} {s : St} (h : Inv p s) {v : Nat} {old x : Option Mem} (hv : s.vars[v]? = some old) (hc : ∀ b, own1 b x = own1 b old)
    (hf : ∀ y, x = some y → Fine p s v y) : Inv p (s.put v x) := by
  refine ⟨?_, h.fresh, ?_⟩
  · intro b
    have e := h.cnt b
    have := put_count hv x b
    have := hc b
    show _ = if (s.blk b).isSome then 1 else 0
    rw [← e]
    omega
  · intro u y hy
    have : Fine p s u y := by
      rcases put_mem hy with hy | ⟨eu, ey⟩
      · exact h.fine u y hy
      · subst eu; exact hf y ey
    exact ⟨this.set, this.loc, this.null, this.heap, this.word⟩

/-- A new object. -/
theorem alloc_inv {p : Par} {s : St} (h : Inv p s) (hp : p.tsz * p.cnt < W) {v : Nat} (hv : s.vars[v]? = some none) (a : Option Nat) {n : Nat}
    (hn : p.tsz * n < W) : Inv p (allocMem p s v a n) := by
  unfold allocMem
  rw [Nat.mod_eq_of_lt hn]
  split
  · have z : s.vars.countP (holds s.next) = 0 := by
      rw [h.cnt, h.fresh _ (Nat.le_refl _)]; rfl
    have other : ∀ (u : Nat) (x : Mem), s.vars[u]? = some (some x) → ∀ b, x.ptr = .heap b → b ≠ s.next := by
      intro u x hx b hb e
      have := (h.fine u x hx).heap b hb
      rw [e, h.fresh _ (Nat.le_refl _)] at this
      cases this
    refine ⟨?_, ?_, ?_⟩
    · intro b
      have c := put_count hv (some ⟨a, .heap s.next, n⟩) b
      rw [own1_none, own1_heap] at c
      show List.countP (holds b) (s.put v (some ⟨a, .heap s.next, n⟩)).vars = if (upd s.blk s.next (some ⟨a, p.tsz * n⟩) b).isSome then 1 else 0
      unfold upd
      by_cases e : b = s.next
      · subst e
        rw [if_pos rfl] at c
        rw [if_pos rfl]
        simp only [Option.isSome_some, if_true]
        omega
      · rw [if_neg e] at c
        rw [if_neg e, ← h.cnt b]
        omega
    · intro b hb
      show upd s.blk s.next _ b = none
      have hb' : s.next + 1 ≤ b := hb
      unfold upd
      rw [if_neg (by omega)]
      exact h.fresh b (by omega)
    · intro u y hy
      rcases put_mem (s := s) hy with hy | ⟨rfl, ey⟩
      · have f := h.fine u y hy
        refine ⟨f.set, f.loc, f.null, ?_, f.word⟩
        intro b hb
        show upd s.blk s.next _ b = _
        unfold upd
        rw [if_neg (other u y hy b hb)]
        exact f.heap b hb
      · cases ey
        refine ⟨by simp, by simp, by simp, ?_, hn⟩
        intro b hb
        cases hb
        show upd s.blk s.next _ s.next = _
        unfold upd
        rw [if_pos rfl]
  · refine inv_put h hv ?_ ?_
    · intro b
      rw [own1_none]
      exact own1_other (by intro c e; cases e)
    · intro y e
      cases e
      exact ⟨by simp, fun u e => (by cases e; exact ⟨rfl, rfl⟩), by simp, by simp, hp⟩

/-- A block is given back by the object `v`, which then holds nothing. -/
theorem drop_inv {p : Par} {s : St} (h : Inv p s) {v b : Nat} {x : Mem} (hv : s.vars[v]? = some (some x)) (hb : x.ptr = .heap b)
    {y : Option Mem} (hy : y = none ∨ y = some ⟨none, .null, 0⟩) : Inv p ({ s with blk := upd s.blk b none }.put v y) := by
  have hx := (h.fine v x hv).heap b hb
  have c1 := h.cnt b
  rw [hx] at c1
  simp only [Option.isSome_some, if_true] at c1
  have oy : ∀ c, own1 c y = 0 := by
    rcases hy with rfl | rfl
    · exact own1_none
    · intro c; exact own1_other (by intro c e; cases e)
  have c2 := put_count hv y b
  rw [own1_of hb, if_pos rfl, oy] at c2
  have nomem : ∀ (u : Nat) (z : Mem), (s.put v y).vars[u]? = some (some z) → z.ptr ≠ .heap b := by
    intro u z hz e
    have : (s.put v y).vars.countP (holds b) ≠ 0 := by
      have := List.countP_pos_iff (p := holds b).mpr ⟨some z, mem_of hz, by simp [holds, e]⟩
      omega
    omega
  refine ⟨?_, ?_, ?_⟩
  · intro c
    have c3 := put_count hv y c
    rw [own1_of hb, oy] at c3
    show List.countP (holds c) (s.put v y).vars = if (upd s.blk b none c).isSome then 1 else 0
    unfold upd
    by_cases e : c = b
    · subst e
      rw [if_pos rfl] at c3
      rw [if_pos rfl]
      simp only [Option.isSome_none, Bool.false_eq_true, if_false]
      omega
    · rw [if_neg e] at c3
      rw [if_neg e, ← h.cnt c]
      omega
  · intro c hc
    show upd s.blk b none c = none
    unfold upd
    split
    · rfl
    · exact h.fresh c hc
  · intro u z hz
    have hz' : (s.put v y).vars[u]? = some (some z) := hz
    have ne := nomem u z hz'
    rcases put_mem hz' with hm | ⟨_, hm⟩
    · have f := h.fine u z hm
      refine ⟨f.set, f.loc, f.null, ?_, f.word⟩
      intro c hc
      show upd s.blk b none c = _
      unfold upd
      rw [if_neg (by intro e; subst e; exact ne hc)]
      exact f.heap c hc
    · rcases hy with rfl | rfl
      · cases hm
      · cases hm
        exact ⟨by simp, by simp, fun _ => ⟨rfl, rfl⟩, by simp, by rw [Nat.mul_zero]; decide⟩

/-- Two objects exchange their contents. -/
theorem exchange_inv {p : Par} {s : St} (h : Inv p s) {v w : Nat} {x y : Mem} (hv : s.vars[v]? = some (some x)) (hw : s.vars[w]? = some (some y))
    (nx : x.ptr ≠ .buf v) (ny : y.ptr ≠ .buf w) : Inv p ((s.put w (some x)).put v (some y)) := by
  refine ⟨?_, h.fresh, ?_⟩
  · intro b
    show _ = if (s.blk b).isSome then 1 else 0
    rw [← h.cnt b]
    have c1 := put_count hw (some x) b
    by_cases e : v = w
    · subst e
      rw [hv] at hw
      cases hw
      have c2 := put_count (put_at hv (some x)) (some x) b
      omega
    · have c2 := put_count (s := s.put w (some x)) (v := v) (old := some x) (by rw [put_ne (Ne.symm e)]; exact hv) (some y) b
      omega
  · have fx := h.fine v x hv
    have fy := h.fine w y hw
    intro u z hz
    have : Fine p s u z := by
      rcases put_mem hz with hz | ⟨eu, ez⟩
      · rcases put_mem hz with hz | ⟨eu, ez⟩
        · exact h.fine u z hz
        · cases ez
          exact ⟨fx.set, fun u e => absurd e (by intro e; have := (fx.loc u e).1; subst this; exact nx e), fx.null, fx.heap, fx.word⟩
      · cases ez
        exact ⟨fy.set, fun u e => absurd e (by intro e; have := (fy.loc u e).1; subst this; exact ny e), fy.null, fy.heap, fy.word⟩
    exact ⟨this.set, this.loc, this.null, this.heap, this.word⟩

/-- `operator delete` on the memory of an object without runtime allocator succeeds. -/
theorem opDelete_of {p : Par} {s : St} {v : Nat} {x : Mem} (f : Fine p s v x) (ha : x.alloc = none) (hl : x.ptr ≠ .buf v) :
    (x.ptr = .null ∧ opDelete s x.ptr = .ok s) ∨ ∃ b, x.ptr = .heap b ∧ opDelete s x.ptr = .ok { s with blk := upd s.blk b none } := by
  cases e : x.ptr with
  | unset => exact absurd e f.set
  | null => exact Or.inl ⟨rfl, rfl⟩
  | buf u => exact absurd ((f.loc u e).1 ▸ e) hl
  | heap b =>
    refine Or.inr ⟨b, rfl, ?_⟩
    simp only [opDelete]
    rw [f.heap b e, ha]

theorem release_of {p : Par} {s : St} {v : Nat} {x : Mem} (f : Fine p s v x) (hl : x.ptr ≠ .buf v) :
    release p s x = match x.ptr with
      | .heap b => .ok { s with blk := upd s.blk b none }
      | _ => .ok s := by
  unfold release
  cases ha : x.alloc with
  | none =>
    rcases opDelete_of f ha hl with ⟨e, h⟩ | ⟨b, e, h⟩
    · rw [e] at h ⊢; exact h
    · rw [e] at h ⊢; exact h
  | some a =>
    cases e : x.ptr with
    | unset => exact absurd e f.set
    | null => have := (f.null e).2; rw [ha] at this; cases this
    | buf u => exact absurd ((f.loc u e).1 ▸ e) hl
    | heap b =>
      simp only [rtDealloc]
      rw [Nat.mul_comm, Nat.mod_eq_of_lt f.word, f.heap b e, ha, if_pos rfl]

/-- Each step that keeps the rules keeps the invariant and is not undefined. -/
theorem step_inv {p : Par} (hp : p.tsz * p.cnt < W) {s : St} {op : Op} (h : Inv p s) (hr : rule p s op = true) :
    (∃ s', step p s op = .ok s' ∧ Inv p s') ∨ step p s op = .error .stuck := by
  have gcase : ∀ v, (∃ x, s.get v = .ok x ∧ s.vars[v]? = some (some x)) ∨ s.get v = .error .stuck := by
    intro v
    unfold St.get
    split
    · rename_i x e; exact Or.inl ⟨x, rfl, e⟩
    · exact Or.inr rfl
  have fcase : ∀ v, (s.free v = .ok () ∧ s.vars[v]? = some none) ∨ s.free v = .error .stuck := by
    intro v
    unfold St.free
    split
    · rename_i e; exact Or.inl ⟨rfl, e⟩
    · exact Or.inr rfl
  cases op with
  | ctor v a => cases hr
  | ctorN v a n =>
    simp only [rule, decide_eq_true_eq] at hr
    rcases fcase v with ⟨f, hv⟩ | f
    · exact Or.inl ⟨_, by simp only [step, f]; rfl, alloc_inv h hp hv a hr⟩
    · exact Or.inr (by simp only [step, f]; rfl)
  | copyN v w n =>
    simp only [rule, decide_eq_true_eq] at hr
    rcases fcase v with ⟨f, hv⟩ | f
    · rcases gcase w with ⟨y, g, hw⟩ | g
      · exact Or.inl ⟨_, by simp only [step, f, g]; rfl, alloc_inv h hp hv y.alloc hr⟩
      · exact Or.inr (by simp only [step, f, g]; rfl)
    · exact Or.inr (by simp only [step, f]; rfl)
  | copy v w =>
    rcases fcase v with ⟨f, hv⟩ | f
    · rcases gcase w with ⟨y, g, hw⟩ | g
      · have fy := h.fine w y hw
        exact Or.inl ⟨_, by simp only [step, f, g]; simp only [bind, Except.bind, fy.set, if_false], alloc_inv h hp hv y.alloc fy.word⟩
      · exact Or.inr (by simp only [step, f, g]; rfl)
    · exact Or.inr (by simp only [step, f]; rfl)
  | swap v w =>
    rcases gcase v with ⟨x, gx, hv⟩ | gx
    · rcases gcase w with ⟨y, gy, hw⟩ | gy
      · have fx := isLocal_of (h.fine v x hv)
        have fy := isLocal_of (h.fine w y hw)
        simp only [step, gx, gy, bind, Except.bind, fx, fy]
        split
        · exact Or.inl ⟨s, rfl, h⟩
        · rename_i nl
          simp only [Bool.or_eq_true, decide_eq_true_eq, not_or] at nl
          exact Or.inl ⟨_, rfl, exchange_inv h hv hw nl.1 nl.2⟩
      · exact Or.inr (by simp only [step, gx, gy]; rfl)
    · exact Or.inr (by simp only [step, gx]; rfl)
  | move v w =>
    rcases gcase v with ⟨x, gx, hv⟩ | gx
    · rcases gcase w with ⟨y, gy, hw⟩ | gy
      · have fx := isLocal_of (h.fine v x hv)
        have ff := h.fine w y hw
        have fy := isLocal_of ff
        simp only [rule, hw, Bool.or_eq_true, decide_eq_true_eq] at hr
        simp only [step, gx, gy, bind, Except.bind, fx, fy]
        split
        · exact Or.inl ⟨s, rfl, h⟩
        · rename_i nl
          -- the target first gives back what it has
          have nullI : ∀ s1 : St, Inv p (s1.put w (some ⟨none, .null, 0⟩)) → s1.vars = s.vars →
              Inv p ((s1.put w (some x)).put v (some ⟨none, .null, 0⟩)) := by
            intro s1 h1 hs
            by_cases e : v = w
            · subst e
              have : (s1.put v (some x)).put v (some ⟨none, .null, 0⟩) = s1.put v (some ⟨none, .null, 0⟩) := by
                simp [St.put]
              rw [this]
              exact h1
            · have hv1 : (s1.put w (some ⟨none, .null, 0⟩)).vars[v]? = some (some x) := by
                rw [put_ne (Ne.symm e), hs]; exact hv
              have hw1 : (s1.put w (some ⟨none, .null, 0⟩)).vars[w]? = some (some ⟨none, .null, 0⟩) :=
                put_at (by rw [hs]; exact hw) _
              have := exchange_inv h1 hv1 hw1 (by simpa using nl) (by simp)
              have e2 : ((s1.put w (some ⟨none, .null, 0⟩)).put w (some x)) = s1.put w (some x) := by
                simp [St.put]
              rw [e2] at this
              exact this
          by_cases ly : y.ptr = .buf w
          · rw [decide_eq_true ly]
            simp only [if_true]
            refine Or.inl ⟨_, rfl, nullI s ?_ rfl⟩
            refine inv_put h hw ?_ ?_
            · intro b
              rw [own1_other (by intro c e; cases e), own1_other (by intro c e; rw [ly] at e; cases e)]
            · intro z e
              cases e
              exact ⟨by simp, by simp, fun _ => ⟨rfl, rfl⟩, by simp, by rw [Nat.mul_zero]; decide⟩
          · rw [decide_eq_false ly]
            simp only [Bool.false_eq_true, if_false]
            have ha : y.alloc = none := by
              rcases hr with hr | hr
              · exact hr
              · exact absurd hr ly
            rcases opDelete_of ff ha ly with ⟨e, o⟩ | ⟨b, e, o⟩
            · rw [o]
              refine Or.inl ⟨_, rfl, nullI s ?_ rfl⟩
              refine inv_put h hw ?_ ?_
              · intro b
                rw [own1_other (by intro c e; cases e), own1_other (by intro c e2; rw [e] at e2; cases e2)]
              · intro z e
                cases e
                exact ⟨by simp, by simp, fun _ => ⟨rfl, rfl⟩, by simp, by rw [Nat.mul_zero]; decide⟩
            · rw [o]
              exact Or.inl ⟨_, rfl, nullI _ (drop_inv h hw e (Or.inr rfl)) rfl⟩
      · exact Or.inr (by simp only [step, gx, gy]; rfl)
    · exact Or.inr (by simp only [step, gx]; rfl)
  | destroy v =>
    rcases gcase v with ⟨x, gx, hv⟩ | gx
    · have ff := h.fine v x hv
      have fx := isLocal_of ff
      have noheap : (∀ c, x.ptr ≠ .heap c) → Inv p (s.put v none) := by
        intro nh
        exact inv_put h hv (by intro b; rw [own1_none, own1_other nh]) (by intro z e; cases e)
      simp only [step, gx, bind, Except.bind, fx]
      by_cases lx : x.ptr = .buf v
      · rw [decide_eq_true lx]
        simp only [if_true]
        exact Or.inl ⟨_, rfl, noheap (by intro c e; rw [lx] at e; cases e)⟩
      · rw [decide_eq_false lx]
        simp only [Bool.false_eq_true, if_false]
        rw [release_of ff lx]
        cases e : x.ptr with
        | heap b => exact Or.inl ⟨_, rfl, drop_inv h hv e (Or.inl rfl)⟩
        | unset => exact absurd e ff.set
        | buf u => exact absurd ((ff.loc u e).1 ▸ e) lx
        | null => exact Or.inl ⟨_, rfl, noheap (by intro c e2; rw [e] at e2; cases e2)⟩
    · exact Or.inr (by simp only [step, gx]; rfl)

theorem run_inv {p : Par} (hp : p.tsz * p.cnt < W) : ∀ (l : List Op) {s : St}, Inv p s → keeps p s l = true →
    (∃ s', run p s l = .ok s' ∧ Inv p s') ∨ run p s l = .error .stuck
  | [], s, h, _ => Or.inl ⟨s, rfl, h⟩
  | op :: l, s, h, hk => by
    simp only [keeps, Bool.and_eq_true] at hk
    rcases step_inv hp h hk.1 with ⟨s1, hs, h1⟩ | hs
    · rw [hs] at hk
      simp only [run, hs]
      exact run_inv hp l h1 hk.2
    · exact Or.inr (by simp only [run, hs])

theorem new_inv (p : Par) (k : Nat) : Inv p (new k) := by
  refine ⟨?_, fun _ _ => rfl, ?_⟩
  · intro b
    simp [new, List.countP_replicate, holds]
  · intro v x hx
    have := List.eq_of_mem_replicate (mem_of hx)
    cases this

/-! ## Results -/

/-- **C138 (blocks).** In every history that keeps the rules nothing undefined happens (no block is given back twice, to
another than its maker or with another size), and every block that exists is held by exactly one object. -/
theorem C138_blocks_partial (p : Par) (hp : p.tsz * p.cnt < W) (k : Nat) (l : List Op) (hk : keeps p (new k) l = true) :
    run p (new k) l ≠ .error .ub ∧
    ∀ s, run p (new k) l = .ok s → ∀ b, s.vars.countP (holds b) = if (s.blk b).isSome then 1 else 0 := by
  rcases run_inv hp l (new_inv p k) hk with ⟨s, hs, h⟩ | hs
  · rw [hs]
    refine ⟨by simp, ?_⟩
    intro s' e
    cases e
    exact h.cnt
  · rw [hs]
    exact ⟨by simp, fun _ e => by cases e⟩

/-- **C138 (no leak).** When all objects are gone, no block exists. -/
theorem C138_no_leak_partial (p : Par) (hp : p.tsz * p.cnt < W) (k : Nat) (l : List Op) (hk : keeps p (new k) l = true) (s : St)
    (hs : run p (new k) l = .ok s) (hv : ∀ x ∈ s.vars, x = none) (b : Nat) : s.blk b = none := by
  have h := (C138_blocks_partial p hp k l hk).2 s hs b
  have h0 : s.vars.countP (holds b) = 0 := by
    rw [List.countP_eq_zero]
    intro x hx
    rw [hv x hx]
    simp [holds]
  rw [h0] at h
  cases e : s.blk b with
  | none => rfl
  | some k => rw [e] at h; simp at h

/-- **C138 (room).** Every object has room for the number of items it reports. -/
theorem C138_room_partial (p : Par) (hp : p.tsz * p.cnt < W) (k : Nat) (l : List Op) (hk : keeps p (new k) l = true) (s : St)
    (hs : run p (new k) l = .ok s) (v : Nat) (x : Mem) (hx : s.vars[v]? = some (some x)) : room p s x = x.size * p.tsz := by
  rcases run_inv hp l (new_inv p k) hk with ⟨s', hs', h⟩ | hs'
  · rw [hs'] at hs
    cases hs
    have f := h.fine v x hx
    unfold room
    cases e : x.ptr with
    | unset => exact absurd e f.set
    | null => simp [(f.null e).1]
    | buf u => simp [(f.loc u e).2]
    | heap b => simp only [f.heap b e]; exact Nat.mul_comm _ _
  · rw [hs'] at hs; cases hs

/-- **C138 (new object).** A new object has room for at least the requested number of items. -/
theorem C138_request (p : Par) (s s' : St) (v : Nat) (a : Option Nat) (n : Nat) (hs : step p s (.ctorN v a n) = .ok s') :
    ∃ x, s'.vars[v]? = some (some x) ∧ n ≤ x.size ∧ x.alloc = a ∧ (n ≤ p.cnt → s'.next = s.next) := by
  simp only [step] at hs
  obtain ⟨u, h1, hs⟩ := bind_ok hs
  have hv := free_ok h1
  cases hs
  unfold allocMem
  split
  · exact ⟨_, put_at hv _, Nat.le_refl _, rfl, fun _ => by omega⟩
  · exact ⟨_, put_at hv _, by simp only; omega, rfl, fun _ => rfl⟩

/-- **C138 (growing).** An array without runtime allocator that needs more than the room inside gets a new block of the
requested size and its old block is given back. -/
theorem C138_grow_partial (p : Par) (hp : p.tsz * p.cnt < W) (s : St) (h : Inv p s) (v t n max : Nat) (x : Mem) (hv : s.vars[v]? = some (some x))
    (ha : x.alloc = none) (ht : s.vars[t]? = some none) (hn : s.vars[n]? = some none) (tn : t ≠ n) (hm : p.cnt < max) (hw : p.tsz * max < W) :
    ∃ s', run p s (grow v t n max) = .ok s' ∧ Inv p s' ∧ s'.vars[v]? = some (some ⟨none, .heap s.next, max⟩) ∧
      s'.blk s.next = some ⟨none, p.tsz * max⟩ ∧ (∀ b, x.ptr = .heap b → s'.blk b = none) ∧ s'.vars[t]? = some none ∧ s'.vars[n]? = some none := by
  have vt : v ≠ t := by intro e; subst e; rw [hv] at ht; cases ht
  have vn : v ≠ n := by intro e; subst e; rw [hv] at hn; cases hn
  -- tmp
  have a1 := alloc_inv h hp ht none hw
  have e1 : step p s (.copyN t v max) = .ok (allocMem p s t none max) := by
    simp only [step, St.free, ht, get_of hv, bind, Except.bind, ha]
  generalize g1 : allocMem p s t none max = s1 at a1 e1
  have f1 : s1.vars = s.vars.set t (some ⟨none, .heap s.next, max⟩) ∧ s1.blk = upd s.blk s.next (some ⟨none, p.tsz * max⟩) ∧ s1.next = s.next + 1 := by
    rw [← g1]
    unfold allocMem
    rw [if_pos hm, Nat.mod_eq_of_lt hw]
    exact ⟨rfl, rfl, rfl⟩
  have t1 : s1.vars[t]? = some (some ⟨none, .heap s.next, max⟩) := by rw [f1.1]; exact put_at ht _
  have v1 : s1.vars[v]? = some (some x) := by rw [f1.1, List.getElem?_set_ne (Ne.symm vt)]; exact hv
  have n1 : s1.vars[n]? = some none := by rw [f1.1, List.getElem?_set_ne tn]; exact hn
  -- newblk
  have a2 := alloc_inv a1 hp n1 none (n := 0) (by rw [Nat.mul_zero]; decide)
  have e2 : step p s1 (.copyN n v 0) = .ok (allocMem p s1 n none 0) := by
    simp only [step, St.free, n1, get_of v1, bind, Except.bind, ha]
  have g2 : allocMem p s1 n none 0 = s1.put n (some ⟨none, .buf n, p.cnt⟩) := by
    unfold allocMem
    rw [if_neg (by omega)]
  rw [g2] at a2 e2
  generalize g3 : s1.put n (some ⟨none, .buf n, p.cnt⟩) = s2 at a2 e2
  have n2 : s2.vars[n]? = some (some ⟨none, .buf n, p.cnt⟩) := by rw [← g3]; exact put_at n1 _
  have t2 : s2.vars[t]? = some (some ⟨none, .heap s.next, max⟩) := by rw [← g3, put_ne (Ne.symm tn)]; exact t1
  have v2 : s2.vars[v]? = some (some x) := by rw [← g3, put_ne (Ne.symm vn)]; exact v1
  have b2 : s2.blk = s1.blk := by rw [← g3]; rfl
  -- tmp.move(newblk)
  have e3 : step p s2 (.move t n) = .ok ((s2.put n (some ⟨none, .heap s.next, max⟩)).put t (some ⟨none, .null, 0⟩)) := by
    have l1 : (⟨none, .heap s.next, max⟩ : Mem).isLocal t = .ok false := rfl
    have l2 : (⟨none, .buf n, p.cnt⟩ : Mem).isLocal n = .ok true := by simp [Mem.isLocal]
    simp only [step, get_of t2, get_of n2, bind, Except.bind, l1, l2, Bool.false_eq_true, if_false, if_true]
  have a3 : Inv p ((s2.put n (some ⟨none, .heap s.next, max⟩)).put t (some ⟨none, .null, 0⟩)) := by
    rcases step_inv hp a2 (op := .move t n) (by simp [rule, n2]) with ⟨s', e, i⟩ | e
    · rw [e3] at e; cases e; exact i
    · rw [e3] at e; cases e
  generalize g4 : (s2.put n (some ⟨none, .heap s.next, max⟩)).put t (some ⟨none, .null, 0⟩) = s3 at a3 e3
  have n3 : s3.vars[n]? = some (some ⟨none, .heap s.next, max⟩) := by rw [← g4, put_ne tn]; exact put_at n2 _
  have t3 : s3.vars[t]? = some (some ⟨none, .null, 0⟩) := by
    rw [← g4]; exact put_at (by rw [put_ne (Ne.symm tn)]; exact t2) _
  have v3 : s3.vars[v]? = some (some x) := by rw [← g4, put_ne (Ne.symm vt), put_ne (Ne.symm vn)]; exact v2
  have b3 : s3.blk = s1.blk := by rw [← g4]; exact b2
  -- newblk.move(allocBk)
  have fx := a3.fine v x v3
  have m4 : ∃ s4, step p s3 (.move n v) = .ok s4 ∧ s4.vars = (s3.vars.set v (some ⟨none, .heap s.next, max⟩)).set n (some ⟨none, .null, 0⟩) ∧
      (∀ b, s4.blk b = if x.ptr = .heap b then none else s1.blk b) := by
    have ln : (⟨none, .heap s.next, max⟩ : Mem).isLocal n = .ok false := rfl
    simp only [step, get_of n3, get_of v3, isLocal_of fx, bind, Except.bind, ln, Bool.false_eq_true, if_false]
    by_cases l : x.ptr = .buf v
    · rw [decide_eq_true l]
      exact ⟨_, rfl, rfl, by intro b; rw [l, if_neg (by simp), ← b3]; rfl⟩
    · rw [decide_eq_false l]
      rcases opDelete_of fx ha l with ⟨e, o⟩ | ⟨b, e, o⟩
      · rw [o]
        exact ⟨_, rfl, rfl, by intro b; rw [e, if_neg (by simp), ← b3]; rfl⟩
      · rw [o]
        refine ⟨_, rfl, rfl, ?_⟩
        intro c
        show upd s3.blk b none c = _
        unfold upd
        rw [e, b3]
        by_cases cb : c = b
        · subst cb; rw [if_pos rfl, if_pos rfl]
        · rw [if_neg cb, if_neg (by intro e; cases e; exact cb rfl)]
  obtain ⟨s4, e4, f4, b4⟩ := m4
  have a4 : Inv p s4 := by
    rcases step_inv hp a3 (op := .move n v) (by simp [rule, v3, ha]) with ⟨s', e, i⟩ | e
    · rw [e4] at e; cases e; exact i
    · rw [e4] at e; cases e
  have n4 : s4.vars[n]? = some (some ⟨none, .null, 0⟩) := by
    rw [f4]; exact put_at (s := s3.put v (some ⟨none, .heap s.next, max⟩)) (by rw [put_ne vn]; exact n3) _
  have v4 : s4.vars[v]? = some (some ⟨none, .heap s.next, max⟩) := by
    rw [f4, List.getElem?_set_ne (Ne.symm vn)]; exact put_at v3 _
  have t4 : s4.vars[t]? = some (some ⟨none, .null, 0⟩) := by
    rw [f4, List.getElem?_set_ne (Ne.symm tn), List.getElem?_set_ne vt]; exact t3
  have e5 : step p s4 (.destroy n) = .ok (s4.put n none) := by simp only [step, get_of n4]; rfl
  have a5 : Inv p (s4.put n none) := by
    rcases step_inv hp a4 (op := .destroy n) rfl with ⟨s', e, i⟩ | e
    · rw [e5] at e; cases e; exact i
    · rw [e5] at e; cases e
  have t5 : (s4.put n none).vars[t]? = some (some ⟨none, .null, 0⟩) := by rw [put_ne (Ne.symm tn)]; exact t4
  have e6 : step p (s4.put n none) (.destroy t) = .ok ((s4.put n none).put t none) := by simp only [step, get_of t5]; rfl
  have a6 : Inv p ((s4.put n none).put t none) := by
    rcases step_inv hp a5 (op := .destroy t) rfl with ⟨s', e, i⟩ | e
    · rw [e6] at e; cases e; exact i
    · rw [e6] at e; cases e
  refine ⟨(s4.put n none).put t none, ?_, a6, ?_, ?_, ?_, put_at t5 _, ?_⟩
  · simp only [grow, run, e1, e2, e3, e4, e5, e6]
  · rw [put_ne (Ne.symm vt), put_ne (Ne.symm vn)]; exact v4
  · have fxo : x.ptr ≠ .heap s.next := by
      intro e
      have := (h.fine v x hv).heap _ e
      rw [h.fresh _ (Nat.le_refl _)] at this
      cases this
    show s4.blk s.next = _
    rw [b4, if_neg fxo, f1.2.1]
    unfold upd
    rw [if_pos rfl]
  · intro b e
    show s4.blk b = none
    rw [b4, if_pos e]
  · rw [put_ne tn]; exact put_at n4 _

def look (n : Nat) : Except Err St → Option (List (Option Blk) × List (Option Mem))
  | .ok s => some ((List.range n).map s.blk, s.vars)
  | .error _ => none

/-- Four items of eight bytes inside. -/
def P : Par := ⟨4, 8⟩

def hist : List Op := [.ctorN 0 none 3, .ctorN 1 none 9, .copy 2 1, .swap 1 2, .swap 0 1, .move 1 0, .move 2 1, .copyN 3 0 5, .destroy 1]

example : keeps P (new 4) hist = true := by decide
example : look 3 (run P (new 4) hist) = some ([none, some ⟨none, 72⟩, some ⟨none, 40⟩],
    [some ⟨none, .heap 1, 9⟩, none, some ⟨none, .null, 0⟩, some ⟨none, .heap 2, 5⟩]) := by decide

example : look 2 (run P (new 2) [.ctorN 0 (some 7) 5, .copy 1 0, .swap 0 1, .destroy 1]) = some ([none, some ⟨some 7, 40⟩], [some ⟨some 7, .heap 1, 5⟩, none]) := by decide

example : look 2 (run P (new 3) (.ctorN 0 none 5 :: grow 0 1 2 9)) = some ([none, some ⟨none, 72⟩], [some ⟨none, .heap 1, 9⟩, none, none]) := by decide

example : look 1 (run P (new 2) [.ctorN 0 none 2, .ctorN 1 none 9, .swap 0 1, .move 0 1]) = some ([some ⟨none, 72⟩], [some ⟨none, .buf 0, 4⟩, some ⟨none, .heap 0, 9⟩]) := by decide

/-- **C138 violated**: an array with a runtime allocator that grows twice gives the block of the allocator to `operator delete`. -/
theorem C138_grow_violated :
    look 1 (run P (new 3) (.ctorN 0 (some 7) 0 :: grow 0 1 2 5)) = some ([some ⟨some 7, 40⟩], [some ⟨some 7, .heap 0, 5⟩, none, none]) ∧
    run P (new 3) (.ctorN 0 (some 7) 0 :: grow 0 1 2 5 ++ grow 0 1 2 8) = .error .ub := ⟨by decide, rfl⟩

/-- **C138 violated**: the constructor without count sets neither pointer nor size. -/
theorem C138_ctor_violated : run P (new 1) [.ctor 0 none, .destroy 0] = .error .ub := rfl

/-- **C138 violated**: a number of items near 2^61 gives a block of one item. -/
theorem C138_overflow_violated :
    look 1 (run P (new 1) [.ctorN 0 none (2 ^ 61 + 1)]) = some ([some ⟨none, 8⟩], [some ⟨none, .heap 0, 2 ^ 61 + 1⟩]) := by decide

/-- **C138 violated**: the memory `move` was called on loses its allocator; its copies do not use it. -/
theorem C138_allocator_violated :
    look 2 (run P (new 3) [.ctorN 0 (some 7) 5, .ctorN 1 none 0, .move 0 1, .copyN 2 0 6]) =
      some ([some ⟨some 7, 40⟩, some ⟨none, 48⟩], [some ⟨none, .null, 0⟩, some ⟨some 7, .heap 0, 5⟩, some ⟨none, .heap 1, 6⟩]) := by decide

/-- **C138 violated**: `move` of an object to itself gives back its memory. -/
theorem C138_self_violated :
    look 1 (run P (new 1) [.ctorN 0 none 5, .move 0 0]) = some ([none], [some ⟨none, .null, 0⟩]) := by decide

end LS.SmallMem

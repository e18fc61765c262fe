import Verif.PromiseRef
/-!
# C80: a future is canceled when its last promise is gone, and only then
-/

namespace LS.PromiseRef

/-- How many live promises refer to `v`. -/
def live (s : St) (v : Nat) : Nat := s.objs.countP (·.2 = v)

/-- 1 if a number fell to zero. -/
def fell (a b : Nat) : Nat := if a ≠ 0 ∧ b = 0 then 1 else 0

theorem fell_yes {a b : Nat} (h : a ≠ 0 ∧ b = 0) : fell a b = 1 := if_pos h

theorem fell_no {a b : Nat} (h : ¬ (a ≠ 0 ∧ b = 0)) : fell a b = 0 := if_neg h

/-- C80 for one operation: a future is canceled exactly when its number of promises falls to zero. -/
def Good (s s' : St) : Prop :=
  ∀ v, s'.canceled.count v = s.canceled.count v + fell (live s v) (live s' v)

structure Inv (s : St) : Prop where
  cnt : ∀ v, s.cnt v = live s v
  nodup : (s.objs.map (·.1)).Nodup

theorem lookup_none {l : List (Nat × Nat)} {p : Nat} (h : l.lookup p = none) : p ∉ l.map (·.1) := by
  intro hp
  obtain ⟨⟨a, b⟩, h1, h2⟩ := List.mem_map.1 hp
  simp at h2
  subst h2
  have := List.lookup_eq_none_iff.1 h _ h1
  simp at this

theorem filter_count {l : List (Nat × Nat)} {p v : Nat} (hn : (l.map (·.1)).Nodup) (h : l.lookup p = some v) (w : Nat) :
    (l.filter (·.1 ≠ p)).countP (·.2 = w) + (if w = v then 1 else 0) = l.countP (·.2 = w) := by
  induction l with
  | nil => cases h
  | cons q l ih =>
    obtain ⟨a, b⟩ := q
    simp only [List.map_cons, List.nodup_cons] at hn
    by_cases hp : p = a
    · subst hp
      simp only [List.lookup_cons, beq_self_eq_true, Option.some.injEq] at h
      subst h
      have hf : l.filter (fun x => decide (x.1 ≠ p)) = l := by
        rw [List.filter_eq_self]
        rintro ⟨c, d⟩ hc
        simp only [decide_eq_true_eq]
        intro hcp
        subst hcp
        exact hn.1 (List.mem_map.2 ⟨_, hc, rfl⟩)
      simp only [List.filter_cons, ne_eq, not_true, decide_false, Bool.false_eq_true, if_false]
      rw [show l.filter (fun x => decide (¬ x.1 = p)) = l from hf, List.countP_cons]
      by_cases hw : w = b
      · subst hw; simp
      · have : b ≠ w := fun h => hw h.symm
        simp [hw, this]
    · have e : (p == a) = false := by simp [hp]
      rw [List.lookup_cons, e] at h
      have := ih hn.2 h
      have hp' : a ≠ p := fun h => hp h.symm
      simp only [List.filter_cons, ne_eq, hp', not_false_iff, decide_true, if_true, List.countP_cons]
      simp only [ne_eq] at this
      omega

theorem filter_nodup {l : List (Nat × Nat)} (p : Nat) (hn : (l.map (·.1)).Nodup) :
    ((l.filter (·.1 ≠ p)).map (·.1)).Nodup :=
  List.Sublist.nodup (List.Sublist.map _ List.filter_sublist) hn

/-- C80, partial: construction, copying and destruction of promises. Missing: assignment, for which it does not
hold (`c80_violated`). -/
theorem c80_partial {s s' : St} (h : Inv s) {o : Op} (ho : ∀ p q, o ≠ .assign p q) (hs : step s o = some s') :
    Good s s' ∧ Inv s' := by
  have addI : ∀ p v, s.ptr p = none → Good s (St.add { s with objs := (p, v) :: s.objs } v) ∧
      Inv (St.add { s with objs := (p, v) :: s.objs } v) := by
    intro p v hp
    refine ⟨?_, ?_, ?_⟩
    · intro w
      have : ¬ (live s w ≠ 0 ∧ live (St.add { s with objs := (p, v) :: s.objs } v) w = 0) := by
        simp only [live, St.add, List.countP_cons]
        omega
      rw [fell_no this]
      rfl
    · intro w
      have := h.cnt w
      simp only [live, St.add, List.countP_cons] at this ⊢
      by_cases hw : w = v
      · subst hw; simp [this]
      · have : v ≠ w := fun h => hw h.symm
        simp [hw, this]
        assumption
    · simp only [St.add, List.map_cons, List.nodup_cons]
      exact ⟨lookup_none hp, h.nodup⟩
  cases o with
  | make p v =>
    simp only [step] at hs
    split at hs
    · cases hs
    · next hp =>
      injection hs with hs
      subst hs
      exact addI p v (by simpa using hp)
  | copy p q =>
    simp only [step] at hs
    split at hs
    · cases hs
    · next hp =>
      split at hs
      · cases hs
      · next v hv =>
        injection hs with hs
        subst hs
        exact addI p v (by simpa using hp)
  | destroy p =>
    simp only [step] at hs
    split at hs
    · cases hs
    · next v hv =>
      injection hs with hs
      subst hs
      have hc := filter_count h.nodup hv
      have hcv := hc v
      rw [if_pos rfl] at hcv
      have hi := h.cnt v
      unfold live at hi
      unfold St.release
      simp only [if_true]
      split
      · next h0 =>
        have h1 : s.objs.countP (·.2 = v) = 1 := by omega
        refine ⟨?_, ?_, ?_⟩
        · intro w
          have hw := hc w
          simp only [live, List.count_append]
          by_cases e : w = v
          · subst e
            have : (s.objs.filter (·.1 ≠ p)).countP (·.2 = w) = 0 := by omega
            rw [fell_yes ⟨by omega, this⟩]
            simp
          · rw [if_neg e] at hw
            rw [fell_no (by omega)]
            have : v ≠ w := fun h => e h.symm
            simp [this]
        · intro w
          have hw := hc w
          have := h.cnt w
          simp only [live] at this ⊢
          by_cases e : w = v
          · subst e; simp only [if_true] at hw ⊢; omega
          · rw [if_neg e] at hw ⊢; omega
        · exact filter_nodup p h.nodup
      · next h0 =>
        refine ⟨?_, ?_, ?_⟩
        · intro w
          have hw := hc w
          have hi := h.cnt w
          simp only [live] at hi ⊢
          by_cases e : w = v
          · subst e
            rw [if_pos rfl] at hw
            rw [fell_no (by omega)]
            rfl
          · rw [if_neg e] at hw
            rw [fell_no (by omega)]
            rfl
        · intro w
          have hw := hc w
          have := h.cnt w
          simp only [live] at this ⊢
          by_cases e : w = v
          · subst e; simp only [if_true] at hw ⊢; omega
          · rw [if_neg e] at hw ⊢; omega
        · exact filter_nodup p h.nodup
  | assign p q => exact absurd rfl (ho p q)

theorem Inv.init : Inv {} := ⟨fun _ => rfl, List.nodup_nil⟩

/-- C80, partial, for whole histories without assignment: the counter is the number of promises, and a future
which had a promise and has none now was canceled. -/
theorem c80_run_partial {l : List Op} (hl : ∀ p q, Op.assign p q ∉ l) : ∀ {s s' : St}, Inv s → run s l = some s' →
    Inv s' ∧ ∀ v, live s v ≠ 0 → live s' v = 0 → v ∈ s'.canceled := by
  induction l with
  | nil => intro s s' h e; cases e; exact ⟨h, fun v h1 h2 => absurd h2 h1⟩
  | cons o l ih =>
    intro s s' h e
    simp only [run] at e
    split at e
    · cases e
    · next s1 h1 =>
      have hg := c80_partial h (fun p q ho => hl p q (by rw [ho]; exact List.mem_cons_self)) h1
      have hr := ih (fun p q hm => hl p q (List.mem_cons_of_mem _ hm)) hg.2 e
      refine ⟨hr.1, ?_⟩
      intro v hv hv'
      by_cases h2 : live s1 v = 0
      · have h3 := hg.1 v
        rw [fell_yes ⟨hv, h2⟩] at h3
        have h4 : v ∈ s1.canceled := List.count_pos_iff.1 (by omega)
        clear hr ih h3
        -- cancellations are never taken back
        have mono : ∀ (l : List Op) (a b : St), run a l = some b → v ∈ a.canceled → v ∈ b.canceled := by
          intro l
          induction l with
          | nil => intro a b e h; cases e; exact h
          | cons o l ih =>
            intro a b e h
            simp only [run] at e
            split at e
            · cases e
            · next a1 ha =>
              refine ih a1 b e ?_
              cases o with
              | make p v =>
                simp only [step] at ha
                split at ha
                · cases ha
                · injection ha with ha; subst ha; exact h
              | copy p q =>
                simp only [step] at ha
                split at ha
                · cases ha
                · split at ha
                  · cases ha
                  · injection ha with ha; subst ha; exact h
              | destroy p =>
                simp only [step] at ha
                split at ha
                · cases ha
                · injection ha with ha; subst ha
                  unfold St.release
                  simp only [if_true]
                  split
                  · exact List.mem_append_left _ h
                  · exact h
              | assign p q =>
                simp only [step] at ha
                split at ha
                · injection ha with ha; subst ha; exact h
                · cases ha
        exact mono l s1 s' e h4
      · exact hr.2 v h2 hv'

/-- C80 does not hold for assignment: after `p = q` the future of `q` is canceled although `p` still refers to it,
and the former future of `p` is never canceled. -/
theorem c80_violated :
    ((run {} [.make 1 10, .make 2 20, .assign 1 2, .destroy 2]).map
      fun s => (s.canceled, live s 20, live s 10)) = some ([20], 1, 0) ∧
    ((run {} [.make 1 10, .make 2 20, .assign 1 2, .destroy 2, .destroy 1]).map
      fun s => (s.canceled, s.objs, s.cnt 10, s.cnt 20)) = some ([20], [], 1, -1) := by
  decide

/-- Two futures with three promises. -/
example : ((run {} [.make 1 10, .copy 2 1, .make 3 20, .destroy 1, .destroy 3, .copy 4 2, .destroy 2, .destroy 4]).map
    (·.canceled)) = some [20, 10] := by decide

end LS.PromiseRef

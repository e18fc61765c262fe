import Verif.ParExecInv
/-
C45, C99: the parallel executor.
-/
namespace LS.ParExec
open LS.FastLock (upd upd_same upd_ne)

theorem inv_setMax {s : St} (hi : Inv s) (n : Nat) : Inv (setMax s n) := by
  obtain ⟨i1, i2, i3, i4, i4', i5, i6, i7, i8, i9, i10, i11, i12, i13, i14, i15, i16⟩ := hi
  exact ⟨i1, i2, i3, i4, i4', i5, i6, i7, i8, i9, i10, i11, i12, i13, i14, i15, i16⟩

theorem inv_of_reach {inf : Bool} {m : Nat} {s : St} (h : Reach inf m s) : Inv s := by
  induction h with
  | init => constructor <;> grind [hand, held, posted, cur, before]
  | step _ t ih => exact inv_step ih t
  | setMax n _ ih => exact inv_setMax ih n

/-- Every action taken has been run, or a worker has it. -/
def Kept (s : St) : Prop := ∀ n, s.runs n < s.takes n → ∃ i, held (s.w i) = some n

theorem kept_upd {s s' : St} {i : Nat} {p : W} (hk : Kept s) (h1 : s'.runs = s.runs) (h2 : s'.takes = s.takes) (hw : s'.w = upd s.w i p)
    (hh : held (s.w i) = none ∨ held p = held (s.w i)) : Kept s' := by
  unfold Kept
  rw [h1, h2, hw]
  intro n hn
  obtain ⟨j, hj⟩ := hk n hn
  by_cases e : j = i
  · subst e
    refine ⟨j, ?_⟩
    rw [upd_same]
    rcases hh with hh | hh
    · rw [hj] at hh; cases hh
    · rw [hh]; exact hj
  · exact ⟨j, by rw [upd_ne _ _ e]; exact hj⟩

theorem kept_take {s : St} (hk : Kept s) (i : Nat) (p : Nat → W) (q : W) (h0 : held (s.w i) = none) (hp : ∀ a, held (p a) = some a) : Kept (s.take i p q) := by
  unfold St.take
  cases hc : s.curAction with
  | none => exact kept_upd (s' := s.go i q) hk rfl rfl rfl (.inl h0)
  | some a =>
    intro n hn
    simp only at hn ⊢
    by_cases e : n = a
    · subst e
      exact ⟨i, by rw [upd_same]; exact hp n⟩
    · rw [upd_ne _ _ e] at hn
      exact kept_upd (s' := s.go i (p a)) hk rfl rfl rfl (.inl h0) n hn

theorem kept_step {inf : Bool} {s s' : St} (hi : Inv s) (hk : Kept s) (h : Tr inf s s') : Kept s' := by
  cases h with
  | top i h => exact kept_upd hk rfl rfl rfl (.inl (by rw [h]; rfl))
  | take1 i h => exact kept_take hk i _ _ (by rw [h]; rfl) fun _ => rfl
  | reg i h => exact kept_upd hk rfl rfl rfl (.inl (by rw [h]; rfl))
  | take2 i h => exact kept_take hk i _ _ (by rw [h]; rfl) fun _ => rfl
  | unreg i a h => exact kept_upd hk rfl rfl rfl (.inr (by rw [h]; rfl))
  | woken i h _ => exact kept_upd hk rfl rfl rfl (.inl (by rw [h]; rfl))
  | timeout i h _ => exact kept_upd hk rfl rfl rfl (.inl (by rw [h]; rfl))
  | dec i h => exact kept_upd hk rfl rfl rfl (.inl (by rw [h]; rfl))
  | take3 i h => exact kept_take hk i _ _ (by rw [h]; rfl) fun _ => rfl
  | inc i a h => exact kept_upd hk rfl rfl rfl (.inr (by rw [h]; rfl))
  | notify i a n h _ => exact kept_upd hk rfl rfl rfl (.inr (by rw [h]; rfl))
  | exec i a h =>
    intro n hn
    simp only at hn ⊢
    by_cases e : n = a
    · subst e
      rw [upd_same] at hn
      have := (hi.held i n (by rw [h]; rfl)).1
      omega
    · rw [upd_ne _ _ e] at hn
      obtain ⟨j, hj⟩ := hk n hn
      refine ⟨j, ?_⟩
      by_cases e' : j = i
      · subst e'
        rw [h] at hj
        simp [held] at hj
        omega
      · rw [upd_ne _ _ e']; exact hj
  | chk i k h => exact kept_upd hk rfl rfl rfl (.inl (by rw [h]; rfl))
  | cas i p k h _ => exact kept_upd hk rfl rfl rfl (.inl (by rw [h]; rfl))
  | stay i p k h _ => exact kept_upd hk rfl rfl rfl (.inl (by rw [h]; rfl))
  | start n i ct u h hm hi hr => exact kept_upd hk rfl rfl rfl (.inl (by rw [hi]; rfl))
  | spawn i h hm hi => exact kept_upd hk rfl rfl rfl (.inl (by rw [hi]; rfl))
  | expire n h hf =>
    cases hc : s.curAction with
    | none => exact hk
    | some a => exact hk
  | _ => exact hk

theorem kept_of_reach {inf : Bool} {m : Nat} {s : St} (h : Reach inf m s) : Kept s := by
  induction h with
  | init => intro n hn; simp at hn
  | step hr t ih => exact kept_step (inv_of_reach hr) ih t
  | setMax n _ ih => exact ih

/-! ### C45 -/

/-- For every history of calls, stops and changes of the limit, and every interleaving: the action of a call is taken by at most one worker and run at most once;
if the call was accepted, then it has been taken, and it has been run or exactly one worker has it; if the call failed, it is never run. -/
theorem C45_exactly_once {inf : Bool} {m : Nat} {s : St} (h : Reach inf m s) (n : Nat) :
    s.takes n ≤ 1 ∧ s.runs n ≤ 1 ∧
      (s.accepted n = true → s.takes n = 1 ∧ (s.runs n = 1 ∨ ∃ i, held (s.w i) = some n ∧ ∀ j, held (s.w j) = some n → j = i)) ∧
      (s.failed n = true → s.runs n = 0 ∧ ∀ i, held (s.w i) ≠ some n) := by
  have hi := inv_of_reach h
  have h1 := hi.le n
  have h2 := hi.run n
  refine ⟨h1, by omega, ?_, ?_⟩
  · intro ha
    have h3 := hi.acc n ha
    refine ⟨h3, ?_⟩
    by_cases hr : s.runs n = 1
    · exact .inl hr
    · obtain ⟨i, hw⟩ := kept_of_reach h n (by omega)
      exact .inr ⟨i, hw, fun j hj => hi.uniq j i n hj hw⟩
  · intro hf
    have h3 := hi.fld n hf
    refine ⟨by omega, ?_⟩
    intro i hw
    have := (hi.held i n hw).1
    omega

/-- While a worker copies the action and notifies the caller, the caller of just this action is waiting: its action and its notifier exist, and the notifier is the
registered one. -/
theorem C45_handover {inf : Bool} {m : Nat} {s : St} (h : Reach inf m s) {i a : Nat} (hw : hand (s.w i) = some a) :
    s.callerNtf = some a ∧ s.sig a = false ∧ (s.c = .e4 a ∨ (∃ ct u, s.c = .loop a ct u) ∨ ∃ u, s.c = .started a u) := by
  have hi := inv_of_reach h
  obtain ⟨h1, h2, h3, h4⟩ := hi.hand i a hw
  refine ⟨hi.ntf a h1, h3, ?_⟩
  cases hc : s.c <;> rw [hc] at h1 <;> simp [posted] at h1 <;> subst h1 <;> simp

/-- Transitions without a change of the limit. -/
inductive Steps (inf : Bool) : St → St → Prop where
  | refl (s : St) : Steps inf s s
  | step {s t u : St} : Steps inf s t → Tr inf t u → Steps inf s u

/-- A call waits, no worker is left, and the counter of workers says that the limit is reached. -/
structure Stuck (n : Nat) (s : St) : Prop where
  call : ∃ ct u, s.c = .loop n ct u
  sig : s.sig n = false
  dead : ∀ i, s.w i = .off ∨ s.w i = .dead
  full : s.maxThreads ≤ s.count

theorem stuck_step {n : Nat} {s s' : St} (hs : Stuck n s) (h : Tr true s s') : Stuck n s' ∧ s'.takes = s.takes := by
  obtain ⟨⟨ct, u, h1⟩, h2, h3, h4⟩ := hs
  cases h with
  | start m i ct' u' h hm hi hr => omega
  | nostart m ct' u' h hm hr =>
    rw [h1] at h
    cases h
    exact ⟨⟨⟨_, _, rfl⟩, h2, h3, h4⟩, rfl⟩
  | waited m ct' u' h hs =>
    rw [h1] at h
    cases h
    rw [h2] at hs
    cases hs
  | expire m h hf => cases hf
  | finish => exact ⟨⟨⟨ct, u, h1⟩, h2, h3, h4⟩, rfl⟩
  | call h | e1 _ h | e2 _ h | e3 _ h | e4 _ h | started _ _ h | fail _ h | done _ h | stop h | s1 h | s2 h | s3 h | spawn _ h | spawned h =>
    rw [h1] at h; cases h
  | top i h | take1 i h | reg i h | take2 i h | unreg i _ h | woken i h | timeout i h | dec i h | take3 i h | inc i _ h | notify i _ _ h | exec i _ h | chk i _ h | cas i _ _ h | stay i _ _ h =>
    rcases h3 i with h3 | h3 <;> rw [h3] at h <;> cases h

/-- A stuck call waits for ever (with the default, infinite wait): no worker is started, nothing is taken, the call does not return. -/
theorem C45_stuck {n : Nat} {s s' : St} (hs : Stuck n s) (h : Steps true s s') : Stuck n s' ∧ s'.takes = s.takes := by
  induction h with
  | refl => exact ⟨hs, rfl⟩
  | step _ t ih =>
    obtain ⟨h1, h2⟩ := ih
    obtain ⟨h3, h4⟩ := stuck_step h1 t
    exact ⟨h3, h4.trans h2⟩

/-- The second part of C45 is false: with a limit of one worker, one action is accepted and run, `stopAll` ends the worker, which does not decrement the counter, and the
next call finds no worker and may not start one.  It is stuck. -/
theorem C45_after_stop_violated : ∃ s, Reach true 1 s ∧ s.accepted 0 = true ∧ s.runs 0 = 1 ∧ Stuck 1 s := by
  have h : Reach true 1 { maxThreads := 1 } := .init
  have h := h.step (.call _ rfl)
  have h := h.step (.e1 _ 0 rfl)
  have h := h.step (.e2 _ 0 rfl)
  have h := h.step (.e3 _ 0 rfl)
  have h := h.step (.e4 _ 0 rfl)
  have h := h.step (.start _ 0 0 true false rfl (by decide) rfl (.inl rfl))
  have h := h.step (.started _ 0 false rfl)
  have h := h.step (.top _ 0 rfl)
  have h := h.step (.take1 _ 0 rfl)
  have h := h.step (.notify _ 0 0 0 rfl rfl)
  have h := h.step (.waited _ 0 false false rfl rfl)
  have h := h.step (.done _ 0 rfl)
  have h := h.step (.exec _ 0 0 rfl)
  have h := h.step (.chk _ 0 true rfl)
  have h := h.step (.stay _ 0 1 true rfl (by decide))
  have h := h.step (.stop _ rfl)
  have h := h.step (.s1 _ rfl)
  have h := h.step (.s2 _ rfl)
  have h := h.step (.top _ 0 rfl)
  have h := h.step (.s3 _ rfl)
  have h := h.step (.call _ rfl)
  have h := h.step (.e1 _ 1 rfl)
  have h := h.step (.e2 _ 1 rfl)
  have h := h.step (.e3 _ 1 rfl)
  have h := h.step (.e4 _ 1 rfl)
  refine ⟨_, h, rfl, rfl, ⟨⟨_, _, rfl⟩, rfl, ?_, by decide⟩⟩
  intro i
  by_cases e : i = 0
  · subst e; exact .inr rfl
  · exact .inl (by simp [St.go, St.take, upd, e])

/-! ### C99: the limit -/

/-- Running. -/
def alive (x : W) : Prop := x ≠ .off ∧ x ≠ .dead

/-- Reachable while the limit is not changed and no idle worker runs into its timeout (the default). -/
inductive ReachD (inf : Bool) (m : Nat) : St → Prop where
  | init : ReachD inf m { maxThreads := m }
  | step {s s' : St} : ReachD inf m s → Tr inf s s' → (∀ i, s'.w i ≠ .dec) → ReachD inf m s'

/-- A thread has been started and not counted yet. -/
def uncounted : C → Nat
  | .started _ _ | .spawned => 1
  | _ => 0

structure Lim (m : Nat) (s : St) : Prop where
  max : s.maxThreads = m
  all : ∃ L : List Nat, L.length = s.count + uncounted s.c ∧ ∀ i, s.w i ≠ .off → i ∈ L
  le : s.count + uncounted s.c ≤ m
  low : ∀ i k p, s.w i = .cas k p → p ≤ m
  nodec : ∀ i, s.w i ≠ .dec ∧ s.w i ≠ .take3 ∧ ∀ a, s.w i ≠ .inc a

theorem lim_upd {m : Nat} {s s' : St} {i : Nat} {p : W} (hl : Lim m s) (hw : s'.w = upd s.w i p) (h1 : s'.count = s.count) (h2 : s'.maxThreads = s.maxThreads)
    (h3 : s'.c = s.c) (hi : s.w i ≠ .off) (hp : ∀ k q, p = .cas k q → q ≤ m) (hd : p ≠ .dec ∧ p ≠ .take3 ∧ ∀ a, p ≠ .inc a) : Lim m s' := by
  obtain ⟨l1, ⟨L, l2, l3⟩, l4, l5, l6⟩ := hl
  refine ⟨by rw [h2, l1], ⟨L, by rw [h1, h3, l2], ?_⟩, by rw [h1, h3]; exact l4, ?_, ?_⟩
  · intro j hj
    rw [hw] at hj
    by_cases e : j = i
    · subst e; exact l3 j hi
    · rw [upd_ne _ _ e] at hj; exact l3 j hj
  · intro j k q hj
    rw [hw] at hj
    by_cases e : j = i
    · subst e; rw [upd_same] at hj; exact hp k q hj
    · rw [upd_ne _ _ e] at hj; exact l5 j k q hj
  · intro j
    rw [hw]
    by_cases e : j = i
    · subst e; rw [upd_same]; exact hd
    · rw [upd_ne _ _ e]; exact l6 j

theorem lim_take {m : Nat} {s : St} (hl : Lim m s) {i : Nat} {p : Nat → W} {q : W} (hi : s.w i ≠ .off) (hp : ∀ a k r, p a ≠ .cas k r) (hq : ∀ k r, q ≠ .cas k r)
    (hd : ∀ b, p b ≠ .dec ∧ p b ≠ .take3 ∧ ∀ a, p b ≠ .inc a) (hd' : q ≠ .dec ∧ q ≠ .take3 ∧ ∀ a, q ≠ .inc a) : Lim m (s.take i p q) := by
  unfold St.take
  cases hc : s.curAction with
  | none => exact lim_upd (s' := s.go i q) hl rfl rfl rfl rfl hi (fun k r h => absurd h (hq k r)) hd'
  | some a => exact lim_upd (p := p a) hl rfl rfl rfl rfl hi (fun k r h => absurd h (hp a k r)) (hd a)

theorem lim_c {m : Nat} {s s' : St} (hl : Lim m s) (hw : s'.w = s.w) (h2 : s'.maxThreads = s.maxThreads)
    (h3 : s'.count + uncounted s'.c = s.count + uncounted s.c) : Lim m s' := by
  obtain ⟨l1, ⟨L, l2, l3⟩, l4, l5, l6⟩ := hl
  exact ⟨by rw [h2, l1], ⟨L, by rw [h3, l2], by rw [hw]; exact l3⟩, by rw [h3]; exact l4, by rw [hw]; exact l5, by rw [hw]; exact l6⟩

theorem lim_start {m : Nat} {s s' : St} {i : Nat} (hl : Lim m s) (hw : s'.w = upd s.w i .top) (h2 : s'.maxThreads = s.maxThreads)
    (h3 : s'.count = s.count) (hu : uncounted s.c = 0) (hu' : uncounted s'.c = 1) (hm : s.count < s.maxThreads) : Lim m s' := by
  obtain ⟨l1, ⟨L, l2, l3⟩, l4, l5, l6⟩ := hl
  refine ⟨by rw [h2, l1], ⟨i :: L, by rw [h3, hu', List.length_cons, l2, hu], ?_⟩, by omega, ?_, ?_⟩
  · intro j hj
    rw [hw] at hj
    by_cases e : j = i
    · subst e; simp
    · rw [upd_ne _ _ e] at hj; exact List.mem_cons_of_mem _ (l3 j hj)
  · intro j k q hj
    rw [hw] at hj
    by_cases e : j = i
    · subst e; rw [upd_same] at hj; cases hj
    · rw [upd_ne _ _ e] at hj; exact l5 j k q hj
  · intro j
    rw [hw]
    by_cases e : j = i
    · subst e; rw [upd_same]; simp
    · rw [upd_ne _ _ e]; exact l6 j

theorem lim_step {inf : Bool} {m : Nat} {s s' : St} (hl : Lim m s) (h : Tr inf s s') (hn : ∀ i, s'.w i ≠ .dec) : Lim m s' := by
  cases h with
  | top i h => exact lim_upd hl rfl rfl rfl rfl (by rw [h]; simp) (by intro k q e; split at e <;> cases e) (by split <;> simp)
  | take1 i h => exact lim_take hl (by rw [h]; simp) (by simp) (by simp) (by simp) (by simp)
  | reg i h => exact lim_upd hl rfl rfl rfl rfl (by rw [h]; simp) (by simp) (by simp)
  | take2 i h => exact lim_take hl (by rw [h]; simp) (by simp) (by simp) (by simp) (by simp)
  | unreg i a h => exact lim_upd hl rfl rfl rfl rfl (by rw [h]; simp) (by simp) (by simp)
  | woken i h _ => exact lim_upd hl rfl rfl rfl rfl (by rw [h]; simp) (by simp) (by simp)
  | timeout i h _ => exact absurd (upd_same ..) (hn i)
  | dec i h => exact absurd h (hl.nodec i).1
  | take3 i h => exact absurd h (hl.nodec i).2.1
  | inc i a h => exact absurd h ((hl.nodec i).2.2 a)
  | notify i a n h _ => exact lim_upd hl rfl rfl rfl rfl (by rw [h]; simp) (by simp) (by simp)
  | exec i a h => exact lim_upd hl rfl rfl rfl rfl (by rw [h]; simp) (by simp) (by simp)
  | chk i k h =>
    refine lim_upd hl rfl rfl rfl rfl (by rw [h]; simp) ?_ (by simp)
    intro k q e
    have := hl.le
    cases e
    omega
  | cas i p k h hp =>
    have := hl.low i k p h
    have := hl.max
    omega
  | stay i p k h _ => exact lim_upd hl rfl rfl rfl rfl (by rw [h]; simp) (by intro k q e; split at e <;> cases e) (by split <;> simp)
  | start n i ct u h hm hi hr => exact lim_start hl rfl rfl rfl (by rw [h]; rfl) rfl hm
  | spawn i h hm hi => exact lim_start hl rfl rfl rfl (by rw [h]; rfl) rfl hm
  | started n u h => exact lim_c hl rfl rfl (by rw [h]; rfl)
  | spawned h => exact lim_c hl rfl rfl (by rw [h]; rfl)
  | expire n h hf =>
    cases hc : s.curAction with
    | none => exact lim_c (s' := { s with c := .loop n false true, curAction := none }) hl rfl rfl (by rw [h]; rfl)
    | some a => exact lim_c (s' := { s with curAction := none, c := .fail n }) hl rfl rfl (by rw [h]; rfl)
  | finish => exact lim_c hl rfl rfl rfl
  | call h | e1 _ h | e2 _ h | e3 _ h | e4 _ h | nostart _ _ _ h | waited _ _ _ h | fail _ h | done _ h | stop h | s1 h | s2 h | s3 h =>
    exact lim_c hl rfl rfl (by rw [h]; rfl)

/-- With the default idle timeout (infinite) and a fixed limit, never more workers are alive than the limit allows.  Full claim: for every setting; false, see below. -/
theorem C99_limit_partial {inf : Bool} {m : Nat} {s : St} (h : ReachD inf m s) : ∃ L : List Nat, L.length ≤ m ∧ ∀ i, alive (s.w i) → i ∈ L := by
  have hl : Lim m s := by
    induction h with
    | init => exact ⟨rfl, ⟨[], rfl, fun i h => absurd rfl h⟩, Nat.zero_le _, by simp, by simp⟩
    | step _ t hn ih => exact lim_step ih t hn
  obtain ⟨L, h1, h2⟩ := hl.all
  exact ⟨L, by rw [h1]; exact hl.le, fun i ha => h2 i ha.1⟩

/-- With an idle timeout the limit is exceeded: worker 0 leaves (the counter drops to 0), the next call starts worker 1, and worker 0 takes the action and stays. -/
theorem C99_limit_violated : ∃ s, Reach true 1 s ∧ s.maxThreads = 1 ∧ s.count = 2 ∧ alive (s.w 0) ∧ alive (s.w 1) := by
  have h : Reach true 1 { maxThreads := 1 } := .init
  have h := h.step (.spawn _ 0 rfl (by decide) rfl)
  have h := h.step (.spawned _ rfl)
  have h := h.step (.top _ 0 rfl)
  have h := h.step (.take1 _ 0 rfl)
  have h := h.step (.reg _ 0 rfl)
  have h := h.step (.take2 _ 0 rfl)
  have h := h.step (.timeout _ 0 rfl (by decide))
  have h := h.step (.dec _ 0 rfl)
  have h := h.step (.call _ rfl)
  have h := h.step (.e1 _ 0 rfl)
  have h := h.step (.e2 _ 0 rfl)
  have h := h.step (.e3 _ 0 rfl)
  have h := h.step (.e4 _ 0 rfl)
  have h := h.step (.start _ 0 1 true false rfl (by decide) rfl (.inl rfl))
  have h := h.step (.started _ 0 false rfl)
  have h := h.step (.take3 _ 0 rfl)
  have h := h.step (.inc _ 0 0 rfl)
  exact ⟨_, h, rfl, rfl, ⟨by decide, by decide⟩, ⟨by decide, by decide⟩⟩

end LS.ParExec

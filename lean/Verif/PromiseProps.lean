import Verif.PromiseInvD
/-!
# Properties of `Future` and `Promise`: C40, C41, C79
-/

namespace LS.Promise
open LS.FastLock (upd upd_same upd_ne)

structure Inv (s : St) : Prop where
  a : InvA s
  b : InvB s
  c : InvC s
  d : InvD s

theorem Inv.init : Inv {} := by
  refine ⟨?_, ?_, ?_, ?_⟩ <;> constructor <;> simp [regs, done, resols, calls, hold, waits, inLoop, cexc, recent, pending]

theorem inv {s : St} (h : Reach s) : Inv s := by
  induction h with
  | init => exact Inv.init
  | step _ hs ih =>
    have tr := step_tr ih.a.nodup hs
    exact ⟨ih.a.step tr, ih.b.step ih.a tr, ih.c.step ih.a ih.b tr, ih.d.step ih.a ih.b tr⟩

theorem exec_reach {s s' : St} (h : Reach s) : ∀ {l}, exec s l = some s' → Reach s' := by
  intro l
  induction l generalizing s with
  | nil => intro e; cases e; exact h
  | cons p l ih =>
    intro e
    obtain ⟨t, op⟩ := p
    unfold exec at e
    split at e
    · cases e
    · next s1 h1 => exact ih (.step h h1) e

theorem exec_some {β : Type} {l} {f : St → β} {v : β} (h : (exec {} l).map f = some v) : ∃ s, Reach s ∧ f s = v := by
  cases e : exec {} l with
  | none => rw [e] at h; cases h
  | some s => rw [e] at h; exact ⟨s, exec_reach .init e, by simpa using h⟩

theorem call_notified {l : List Ev} {x : Nat} {o : Out} (h : Ev.call x o ∈ l) : x ∈ notified l :=
  List.mem_filterMap.2 ⟨_, h, rfl⟩

theorem ccall_notified {l : List Ev} {x e : Nat} (h : Ev.ccall x e ∈ l) : x ∈ notified l :=
  List.mem_filterMap.2 ⟨_, h, rfl⟩

theorem mem_notified {l : List Ev} {x : Nat} : x ∈ notified l ↔
    (∃ o, Ev.call x o ∈ l) ∨ (∃ e, Ev.ccall x e ∈ l) := by
  constructor
  · intro h
    obtain ⟨ev, h1, h2⟩ := List.mem_filterMap.1 h
    cases ev <;> simp at h2 <;> subst h2
    · exact .inl ⟨_, h1⟩
    · exact .inr ⟨_, h1⟩
  · rintro (⟨o, h⟩ | ⟨e, h⟩)
    · exact call_notified h
    · exact ccall_notified h

theorem mem_regs {l : List Ev} {x : Nat} : x ∈ regs l ↔ Ev.reg x ∈ l := by
  constructor
  · intro h
    obtain ⟨ev, h1, h2⟩ := List.mem_filterMap.1 h
    cases ev <;> simp at h2 <;> subst h2
    exact h1
  · intro h; exact List.mem_filterMap.2 ⟨_, h, rfl⟩

theorem count_notified_unreg (l : List Ev) (x : Nat) :
    (notified l).count x + l.count (.unreg x) = (done l).count x := by
  induction l with
  | nil => rfl
  | cons e l ih =>
    have h1 : ∀ y, (Ev.unreg y == Ev.unreg x) = (y == x) := by
      intro y
      rw [Bool.eq_iff_iff]
      simp
    cases e <;> simp_all [notified, done, List.count_cons] <;> omega

/-! ## C40 -/

/-- C40: a future takes one resolution; an observer called with an outcome gets that of the resolution. -/
theorem c40_once {s : St} (h : Reach s) :
    (resols s.log).length ≤ 1 ∧ ∀ x o, .call x o ∈ s.log → resols s.log = [o] := by
  have b := (inv h).b
  rw [b.res]
  refine ⟨?_, ?_⟩
  · cases s.value <;> simp
  · intro x o hx
    rw [b.lcall x o hx]
    rfl

/-- C40: the first resolution is the one which is taken, the later ones change nothing. -/
theorem c40_first {s s' : St} {t : Nat} {o : Out} (h : Reach s) (hi : s.pc t = .idle)
    (hs : step s t (.resolve o) = some s') :
    (resols s.log = [] → resols s'.log = [o]) ∧ (resols s.log ≠ [] → s' = s) := by
  have b := (inv h).b
  simp only [step, hi] at hs
  split at hs
  · cases hs
  · injection hs with hs
    subst hs
    rw [b.res]
    unfold St.resolve
    cases hv : s.value with
    | some v => simp
    | none =>
      refine ⟨fun _ => ?_, fun h => absurd rfl h⟩
      have e : resols s.log = [] := by rw [b.res, hv]; rfl
      simp only [Option.isSome_none, Bool.false_eq_true, if_false, St.next]
      split <;> simp [resols_snoc, e]

/-- C40: an observer is notified at most once, and never if it was unregistered. -/
theorem c40_observer {s : St} (h : Reach s) (x : Nat) :
    (notified s.log).count x ≤ 1 ∧ (.unreg x ∈ s.log → x ∉ notified s.log) ∧
    (x ∈ notified s.log → x ∈ regs s.log) := by
  have a := (inv h).a
  have h1 := a.cnt x
  have h2 := a.one x
  have h3 := count_notified_unreg s.log x
  refine ⟨by omega, ?_, ?_⟩
  · intro hu hn
    have := List.count_pos_iff.2 hu
    have := List.count_pos_iff.2 hn
    omega
  · intro hn
    have := List.count_pos_iff.2 hn
    exact List.count_pos_iff.1 (by omega)

theorem idle_hands {s : St} (a : InvA s) (hi : ∀ t, hold (s.pc t) = []) : s.hands = [] := by
  cases hh : s.hands with
  | nil => rfl
  | cons y l =>
    obtain ⟨t, ht⟩ := a.held y (by rw [hh]; exact List.mem_cons_self)
    rw [hi t] at ht
    cases ht

/-- C40: when all calls have returned and the future is resolved, every observer registered at any
time was called with the outcome, or was unregistered, or `cancel` took it. -/
theorem c40_all {s : St} (h : Reach s) (hi : ∀ t, s.pc t = .idle) {o : Out} (hr : resols s.log = [o])
    {x : Nat} (hx : .reg x ∈ s.log) :
    .call x o ∈ s.log ∨ .unreg x ∈ s.log ∨ ∃ e, .cancel e ∈ s.log ∧ .ccall x e ∈ s.log := by
  have a := (inv h).a
  have b := (inv h).b
  have hv : s.value = some o := by
    have := b.res
    rw [hr] at this
    cases hv : s.value with
    | none => rw [hv] at this; cases this
    | some v => rw [hv] at this; simp at this; rw [this]
  have hres : s.resolving = false := by
    cases hres : s.resolving with
    | false => rfl
    | true =>
      obtain ⟨t, ht⟩ := b.loop' hres
      rw [hi t] at ht
      cases ht
  have ho := b.fin hres (by rw [hv]; simp)
  have hh := idle_hands a (fun t => by rw [hi t]; rfl)
  have hc := a.cnt x
  rw [ho, hh] at hc
  have h1 := List.count_pos_iff.2 (mem_regs.2 hx)
  have h2 : x ∈ done s.log := List.count_pos_iff.1 (by simp at hc; omega)
  rcases mem_done.1 h2 with ⟨o', h3⟩ | ⟨e, h3⟩ | h3
  · have := b.lcall x o' h3
    rw [hv] at this
    injection this with this
    subst this
    exact .inl h3
  · exact .inr (.inr ⟨e, b.lccall x e h3, h3⟩)
  · exact .inr (.inl h3)

/-- C40, without cancellation: after the resolution every observer registered before or after it was
called exactly once with its outcome, unless it was unregistered; then it was never called. -/
theorem c40 {s : St} (h : Reach s) (hi : ∀ t, s.pc t = .idle) {o : Out} (hr : resols s.log = [o])
    (hc : ∀ e, .cancel e ∉ s.log) {x : Nat} (hx : .reg x ∈ s.log) :
    (.unreg x ∉ s.log ∧ .call x o ∈ s.log ∧ (notified s.log).count x = 1) ∨
    (.unreg x ∈ s.log ∧ x ∉ notified s.log) := by
  have h1 := c40_observer h x
  rcases c40_all h hi hr hx with h2 | h2 | ⟨e, h2, _⟩
  · have h3 := call_notified h2
    refine .inl ⟨fun hu => h1.2.1 hu h3, h2, ?_⟩
    have := List.count_pos_iff.2 h3
    have := h1.1
    omega
  · exact .inr ⟨h2, h1.2.1 h2⟩
  · exact absurd h2 (hc e)

/-- C40: as long as the resolution is not finished, observers are called in the order of registration. -/
theorem c40_order {s : St} (h : Reach s) (hr : s.resolving = true ∨ resols s.log = []) :
    (calls s.log).Sublist (regs s.log) := by
  refine Sublist.nil' ((inv h).d.ord ?_)
  rcases hr with hr | hr
  · exact .inl hr
  · right
    have := (inv h).b.res
    rw [hr] at this
    cases hv : s.value with
    | none => rfl
    | some v => rw [hv] at this; cases this

/-- C40: `wait` returns the outcome of the resolution, or the exception of a cancellation of which it was
notified; if it throws a timeout, its observer was never notified. -/
theorem c40_wait {s : St} (h : Reach s) (x : Nat) :
    (∀ o, .ret x o ∈ s.log → resols s.log = [o] ∨ ∃ e, o = .exc e ∧ .ccall x e ∈ s.log ∧ .cancel e ∈ s.log) ∧
    (.timeout x ∈ s.log → x ∉ notified s.log) := by
  have i := inv h
  refine ⟨?_, ?_⟩
  · intro o ho
    rcases i.c.ret x o ho with h1 | ⟨e, h1, h2⟩
    · left; rw [i.b.res, h1]; rfl
    · exact .inr ⟨e, h1, h2, i.b.lccall x e h2⟩
  · intro ht
    exact (c40_observer h x).2.1 (i.c.tmo x ht)

/-- The thread sleeps in `wait`. -/
def sleeps (p : PC) (x : Nat) : Prop := p = .wait x ∨ p = .wait2 x

/-- C40: a thread which is inside a call and does not sleep can always go on. -/
theorem c40_enabled {s : St} (h : Reach s) (t : Nat) (h1 : s.pc t ≠ .idle) (h2 : ∀ x, ¬ sleeps (s.pc t) x) :
    ∃ s', step s t .expire = some s' := by
  have b := (inv h).b
  unfold sleeps at h2
  cases hp : s.pc t with
  | idle => exact absurd hp h1
  | wait x => exact absurd (.inl hp) (h2 x)
  | wait2 x => exact absurd (.inr hp) (h2 x)
  | loop =>
    have := b.rv (b.loop t (by rw [hp]; rfl))
    cases hv : s.value with
    | none => exact absurd hv this
    | some o => exact ⟨s.next t o, by simp [step, hp, hv]⟩
  | cancel l e => cases l <;> exact ⟨_, by simp [step, hp]; rfl⟩
  | wait1 x =>
    by_cases hu : (unregister x s.obs).1 = true
    · exact ⟨_, by simp [step, hp, hu]; rfl⟩
    · exact ⟨_, by simp [step, hp, hu]; rfl⟩
  | _ => exact ⟨_, by simp [step, hp]; rfl⟩

/-- C40: no wakeup is lost. If every thread is outside or sleeps in `wait`, then a thread sleeping after the
resolution, and a thread which could not unregister its observer, has its result and can go on. -/
theorem c40_wakeup {s : St} (h : Reach s) (hi : ∀ t, s.pc t = .idle ∨ ∃ x, sleeps (s.pc t) x) {t x : Nat}
    (ht : (s.pc t = .wait x ∧ resols s.log ≠ []) ∨ s.pc t = .wait2 x) :
    (s.res x).isSome ∧ ∃ s', step s t .expire = some s' := by
  have i := inv h
  have hne : s.pc t ≠ .wait0 x := by
    rcases ht with ⟨h, _⟩ | h <;> rw [h] <;> intro h <;> cases h
  have hw : waits (s.pc t) = some x := by
    rcases ht with ⟨h, _⟩ | h <;> rw [h] <;> rfl
  have hreg := i.a.w1 t x hw hne
  have hh := idle_hands i.a (fun u => by
    rcases hi u with h | ⟨y, h | h⟩ <;> rw [h] <;> rfl)
  have ho : x ∉ s.obs := by
    rcases ht with ⟨_, h⟩ | h
    · have hres : s.resolving = false := by
        cases hres : s.resolving with
        | false => rfl
        | true =>
          obtain ⟨u, hu⟩ := i.b.loop' hres
          rcases hi u with h | ⟨y, h | h⟩ <;> rw [h] at hu <;> cases hu
      rw [i.b.res] at h
      rw [i.b.fin hres (by intro hv; rw [hv] at h; exact h rfl)]
      exact List.not_mem_nil
    · exact i.c.w2 t x h
  have hc := i.a.cnt x
  rw [hh, List.count_eq_zero.2 ho] at hc
  have h1 := List.count_pos_iff.2 hreg
  have h2 : x ∈ done s.log := List.count_pos_iff.1 (by simp at hc; omega)
  have hr : (s.res x).isSome := by
    rcases mem_done.1 h2 with ⟨o', h3⟩ | ⟨e, h3⟩ | h3
    · rw [i.c.rs1 x o' h3]; rfl
    · rw [i.c.rs2 x e h3]; rfl
    · exact absurd hw (i.c.dead3 x t (i.c.un x (i.a.wstk t x hw) h3))
  refine ⟨hr, ?_⟩
  rcases ht with ⟨hp, _⟩ | hp
  · exact ⟨_, by simp [step, hp, hr]; rfl⟩
  · exact ⟨_, by simp [step, hp, hr]; rfl⟩

/-! ## C41 -/

theorem foldl_recent (l : List Ev) : ∀ a : List Nat, ∀ x ∈
    l.foldl (fun a e => match e with | .reg x => a ++ [x] | .cancel _ => [] | _ => a) a, x ∈ a ∨ x ∈ regs l := by
  induction l with
  | nil => intro a x hx; exact .inl hx
  | cons e l ih =>
    intro a x hx
    have := ih _ x hx
    cases e <;> simp [regs] at this ⊢ <;> grind

theorem recent_sub (l1 l2 : List Ev) (e x : Nat) (h : x ∈ recent (l1 ++ .cancel e :: l2)) : x ∈ regs l2 := by
  unfold recent at h
  rw [List.foldl_append, List.foldl_cons] at h
  rcases foldl_recent l2 _ x h with h | h
  · cases h
  · exact h

theorem pending_true (l1 l2 : List Ev) (h : ∀ e, Ev.cancel e ∉ l2) : pending (l1 ++ .drop :: l2) = true := by
  unfold pending
  rw [List.foldl_append, List.foldl_cons]
  induction l2 with
  | nil => rfl
  | cons e l ih =>
    have h1 := ih (fun e' he => h e' (List.mem_cons_of_mem _ he))
    rw [List.foldl_cons]
    cases e with
    | cancel e => exact absurd List.mem_cons_self (h e)
    | _ => exact h1

/-- Registered before a cancellation: notified when all calls have returned. -/
theorem cancel_notifies {s : St} (h : Reach s) (hi : ∀ t, s.pc t = .idle) {l1 l2 : List Ev} {e x : Nat}
    (hl : s.log = l1 ++ .cancel e :: l2) (hx : .reg x ∈ l1) : x ∈ done s.log := by
  have i := inv h
  have hh := idle_hands i.a (fun t => by rw [hi t]; rfl)
  have h1 := List.count_pos_iff.2 (mem_regs.2 hx)
  have h2 := i.a.one x
  have e1 : regs s.log = regs l1 ++ regs l2 := by
    rw [hl]; unfold regs; rw [List.filterMap_append, List.filterMap_cons]
  rw [e1, List.count_append] at h2
  have ho : x ∉ s.obs := by
    intro ho
    have := i.d.rcn x ho
    rw [hl] at this
    have := List.count_pos_iff.2 (recent_sub _ _ _ _ this)
    omega
  have hc := i.a.cnt x
  rw [hh, List.count_eq_zero.2 ho, e1, List.count_append] at hc
  exact List.count_pos_iff.1 (by simp at hc; omega)

/-- C41, partial: an observer registered before the last promise was dropped is notified (of a failure, as
there was no resolution) when all calls have returned, unless it was unregistered. Missing: observers
registered after the drop, for which it does not hold (`c41_violated`). -/
theorem c41_partial {s : St} (h : Reach s) (hi : ∀ t, s.pc t = .idle) {l1 l2 : List Ev} {x : Nat}
    (hl : s.log = l1 ++ .drop :: l2) (hr : resols s.log = []) (hx : .reg x ∈ l1) :
    .unreg x ∈ s.log ∨ ∃ e, .ccall x e ∈ s.log := by
  have i := inv h
  have hc : ∃ e, .cancel e ∈ l2 := by
    false_or_by_contra
    rename_i hne
    have := pending_true l1 l2 (fun e he => hne ⟨e, he⟩)
    rw [← hl] at this
    obtain ⟨t, e, ht⟩ := i.d.pen this
    rw [hi t] at ht
    cases ht
  obtain ⟨e, he⟩ := hc
  obtain ⟨a, b, hab⟩ := List.append_of_mem he
  have hl' : s.log = (l1 ++ .drop :: a) ++ .cancel e :: b := by rw [hl, hab]; simp
  have := cancel_notifies h hi hl' (List.mem_append_left _ hx)
  rcases mem_done.1 this with ⟨o, h3⟩ | h3 | h3
  · have := (c40_once h).2 x o h3
    rw [hr] at this; cases this
  · exact .inr h3
  · exact .inl h3

/-- C41 does not hold: an observer registered after the last promise was dropped is never notified, and a
thread which calls `wait` then sleeps for ever. -/
theorem c41_violated :
    (∃ s, Reach s ∧ (∀ t, s.pc t = .idle) ∧ s.refs = 0 ∧ s.log = [.drop, .cancel 0, .reg 7]) ∧
    (∃ s, Reach s ∧ s.refs = 0 ∧ s.log = [.drop, .cancel 0, .reg 7] ∧ (∀ t, t ≠ 1 → s.pc t = .idle) ∧
      ∀ op, op ≠ .expire → step s 1 op = none) := by
  refine ⟨?_, ?_⟩
  · have e : exec {} [(0, .promise), (0, .release), (0, .expire), (0, .expire), (1, .register 7)] =
      some { refs := 0, log := [.drop, .cancel 0, .reg 7], obs := [7], seen := [7], pc := upd (upd (upd (upd (fun _ => .idle) 0 (.cancel0 0)) 0 (.cancel [] 0)) 0 .idle) 1 .idle } := rfl
    refine ⟨_, exec_reach .init e, ?_, rfl, rfl⟩
    intro t
    simp only [upd]
    repeat' split
    all_goals rfl
  · have e : exec {} [(0, .promise), (0, .release), (0, .expire), (0, .expire), (1, .wait 7), (1, .expire)] =
      some { refs := 0, log := [.drop, .cancel 0, .reg 7], obs := [7], seen := [7], stack := [7], pc := upd (upd (upd (upd (upd (fun _ => .idle) 0 (.cancel0 0)) 0 (.cancel [] 0)) 0 .idle) 1 (.wait0 7)) 1 (.wait 7) } := rfl
    refine ⟨_, exec_reach .init e, rfl, rfl, ?_, ?_⟩
    · intro t ht
      simp only [upd, ht, if_false]
      split <;> rfl
    · intro op hop
      cases op <;> first | rfl | exact absurd rfl hop

/-! ## C79 -/

/-- C79, partial: the notification of an observer begins while the observer exists, and the observer of a
`wait` which ended by a timeout is not touched any more. Missing: the rest of the notification, for which
it does not hold (`c79_violated`). -/
theorem c79_partial {s : St} (h : Reach s) :
    (∀ t x o k, s.pc t = .call x o k → s.dead x = false) ∧
    (∀ x, .timeout x ∈ s.log → ∀ t o k, s.pc t ≠ .call x o k ∧ s.pc t ≠ .wake x k) := by
  have i := inv h
  refine ⟨?_, ?_⟩
  · intro t x o k hp
    cases hd : s.dead x with
    | false => rfl
    | true =>
      have h1 : x ∈ s.hands := i.a.hold t x (by rw [hp]; cases k <;> simp [hold])
      exact absurd (i.c.dead2 x hd) (i.a.hdone x h1)
  · intro x hx t o k
    have hn := (c40_wait h x).2 hx
    refine ⟨?_, ?_⟩
    · intro hp
      have h1 : x ∈ s.hands := i.a.hold t x (by rw [hp]; cases k <;> simp [hold])
      exact absurd (unreg_done (i.c.tmo x hx)) (i.a.hdone x h1)
    · intro hp
      have := i.c.wk t x k hp
      cases hr : s.res x with
      | none => rw [hr] at this; cases this
      | some o =>
        rcases i.c.rs x o hr with h1 | ⟨e, _, h1⟩
        · exact hn (call_notified h1)
        · exact hn (ccall_notified h1)

/-- C79 does not hold: a thread waiting sees its result and returns while the notifying thread is still in the
method of the observer, which was on the stack of `wait`; the notifying thread reads it afterwards. -/
theorem c79_violated : ∃ s, Reach s ∧ s.ub = true := by
  have := exec_some (f := fun s => s.ub) (v := true)
    (l := [(0, .promise), (1, .wait 7), (1, .expire), (0, .resolve (.val 5)), (0, .expire),
      (1, .expire), (1, .expire), (1, .expire), (0, .expire)]) (by decide +kernel)
  exact this

/-! ## Examples -/

/-- Two observers before the resolution, one during, one after, one unregistered, one `wait`. -/
example : (exec {} [(0, .promise), (1, .register 1), (1, .register 2), (1, .register 3), (2, .wait 4), (2, .expire),
    (1, .unregister 2), (0, .resolve (.val 9)), (1, .register 5), (3, .resolve (.val 8)), (0, .expire), (0, .expire),
    (0, .expire), (0, .expire), (0, .expire), (0, .expire), (0, .expire), (0, .expire), (2, .expire), (2, .expire),
    (2, .expire), (0, .expire), (0, .expire), (0, .expire), (0, .expire), (1, .register 6), (1, .expire), (1, .expire)]).map
      (fun s => (s.log, (List.range 4).map s.pc, s.ub)) =
    some ([.reg 1, .reg 2, .reg 3, .reg 4, .unreg 2, .resolve (.val 9), .reg 5, .call 1 (.val 9), .call 3 (.val 9),
      .call 4 (.val 9), .ret 4 (.val 9), .call 5 (.val 9), .reg 6, .call 6 (.val 9)], [.idle, .idle, .idle, .idle], false) := by
  decide +kernel

/-- The last promise is dropped: the registered observers are notified. -/
example : (exec {} [(0, .promise), (1, .register 1), (1, .register 2), (0, .release), (0, .expire), (0, .expire), (0, .expire),
    (0, .expire), (0, .expire), (0, .expire), (0, .expire), (0, .expire)]).map
      (fun s => (s.log, s.pc 0)) =
    some ([.reg 1, .reg 2, .drop, .cancel 0, .ccall 1 0, .ccall 2 0], .idle) := by
  decide +kernel

/-- A timeout. -/
example : (exec {} [(0, .promise), (1, .wait 4), (1, .expire), (1, .expire), (1, .expire)]).map (fun s => (s.log, s.dead 4)) =
    some ([.reg 4, .unreg 4, .timeout 4], true) := by
  decide +kernel

example : unregister 2 [1, 2, 3, 4, 5] = (true, [1, 3, 4, 5]) ∧ unregister 4 [1, 2, 3, 4, 5] = (true, [1, 2, 3, 5]) := by
  decide

end LS.Promise

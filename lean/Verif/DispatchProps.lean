import Verif.Dispatch
import Verif.HeapProps
/-
C43, C44: dispatcher and scheduler.
-/
namespace LS.Dispatch

/-! ### C43 -/

/-- Reachable from a new dispatcher. -/
inductive Reach : St → Prop where
  | init : Reach {}
  | step {s s' : St} : Reach s → Tr s s' → Reach s'

/-- The action taken by the thread and not yet run. -/
def inHand (s : St) : List Nat :=
  match s.pc with
  | .act a => [a]
  | _ => []

/-- The queue never loses its front, and only the very first action is ever taken. -/
inductive Shape (s : St) : Prop where
  | empty (h1 : s.queue = []) (h2 : s.dispatched = []) (h3 : s.ran ++ inHand s ++ s.rejected = [])
  | first (a : Nat) (r : List Nat) (h1 : s.queue = some a :: r.map some) (h2 : s.dispatched = a :: r) (h3 : s.ran ++ inHand s ++ s.rejected = [])
  | taken (a : Nat) (r : List Nat) (h1 : s.queue = none :: r.map some) (h2 : s.dispatched = a :: r) (h3 : s.ran ++ inHand s ++ s.rejected = [a])

structure Inv (s : St) : Prop where
  shape : Shape s
  wake : s.pc = .idle → ∀ a, s.queue.head? = some (some a) → s.token = true

theorem inv_dispatch {s : St} (hi : Inv s) (a : Nat) : Inv (dispatch s a) := by
  constructor
  · cases hi.shape with
    | empty h1 h2 h3 => exact .first a [] (by simp [dispatch, h1]) (by simp [dispatch, h2]) h3
    | first b r h1 h2 h3 => exact .first b (r ++ [a]) (by simp [dispatch, h1]) (by simp [dispatch, h2]) h3
    | taken b r h1 h2 h3 => exact .taken b (r ++ [a]) (by simp [dispatch, h1]) (by simp [dispatch, h2]) h3
  · intro hp b hb
    have hp : s.pc = .idle := hp
    show (if s.queue.isEmpty then onNewMessage s else s.token) = true
    cases hq : s.queue with
    | nil => simp [onNewMessage, hp]
    | cons c q =>
      simp only [List.isEmpty_cons, Bool.false_eq_true, if_false]
      refine hi.wake hp b ?_
      simpa [dispatch, hq] using hb

theorem inv_fetch {s : St} (hi : Inv s) (hp : s.pc = .loop) : Inv (fetch s) := by
  have hh : inHand s = [] := by simp [inHand, hp]
  unfold fetch
  by_cases hn : s.needstop = true
  · rw [if_pos hn]
    refine ⟨?_, fun h => by simp [finishRun] at h⟩
    cases hi.shape with
    | empty h1 h2 h3 =>
      rw [hh] at h3
      exact .empty (by simp [finishRun, h1, rejectQueue, getNextAction]) (by simp [finishRun, h2]) (by simpa [finishRun, h1, rejectQueue, getNextAction, inHand] using h3)
    | first b r h1 h2 h3 =>
      rw [hh] at h3
      simp only [List.append_nil, List.append_eq_nil_iff] at h3
      exact .taken b r (by simp [finishRun, h1, rejectQueue, getNextAction]) (by simp [finishRun, h2]) (by simp [finishRun, h1, rejectQueue, getNextAction, inHand, h3])
    | taken b r h1 h2 h3 =>
      rw [hh] at h3
      exact .taken b r (by simp [finishRun, h1, rejectQueue, getNextAction]) (by simp [finishRun, h2]) (by simpa [finishRun, h1, rejectQueue, getNextAction, inHand] using h3)
  · rw [if_neg hn]
    cases hi.shape with
    | empty h1 h2 h3 =>
      rw [hh] at h3
      simp only [h1, getNextAction]
      exact ⟨.empty rfl h2 (by simpa [inHand] using h3), fun _ a h => by simp at h⟩
    | first b r h1 h2 h3 =>
      rw [hh] at h3
      simp only [List.append_nil, List.append_eq_nil_iff] at h3
      simp only [h1, getNextAction]
      exact ⟨.taken b r rfl h2 (by simp [inHand, h3]), fun h => by simp at h⟩
    | taken b r h1 h2 h3 =>
      rw [hh] at h3
      simp only [h1, getNextAction]
      exact ⟨.taken b r rfl h2 (by simpa [inHand] using h3), fun _ a h => by simp at h⟩

theorem inv_step {s s' : St} (hi : Inv s) (h : Tr s s') : Inv s' := by
  cases h with
  | dispatch a h => exact inv_dispatch hi a
  | start h =>
    have hh : inHand s = [] := by simp [inHand, h]
    refine ⟨?_, fun h => by simp at h⟩
    cases hi.shape with
    | empty h1 h2 h3 => rw [hh] at h3; exact .empty h1 h2 h3
    | first b r h1 h2 h3 => rw [hh] at h3; exact .first b r h1 h2 h3
    | taken b r h1 h2 h3 => rw [hh] at h3; exact .taken b r h1 h2 h3
  | fetch h => exact inv_fetch hi h
  | act a b h =>
    have hh : inHand s = [a] := by simp [inHand, h]
    refine ⟨?_, fun h => by simp at h⟩
    cases hi.shape with
    | empty h1 h2 h3 => rw [hh] at h3; simp at h3
    | first b r h1 h2 h3 => rw [hh] at h3; simp at h3
    | taken b r h1 h2 h3 => rw [hh] at h3; exact .taken b r h1 h2 (by simpa [inHand] using h3)
  | wake h =>
    have hh : inHand s = [] := by simp [inHand, h]
    refine ⟨?_, fun h => by simp at h⟩
    cases hi.shape with
    | empty h1 h2 h3 => rw [hh] at h3; exact .empty h1 h2 h3
    | first b r h1 h2 h3 => rw [hh] at h3; exact .first b r h1 h2 h3
    | taken b r h1 h2 h3 => rw [hh] at h3; exact .taken b r h1 h2 h3
  | quit =>
    refine ⟨?_, ?_⟩
    · cases hi.shape with
      | empty h1 h2 h3 => exact .empty h1 h2 h3
      | first b r h1 h2 h3 => exact .first b r h1 h2 h3
      | taken b r h1 h2 h3 => exact .taken b r h1 h2 h3
    · intro h a hb
      have h : s.pc = .idle := h
      simp [onNewMessage, h]

theorem inv_of_reach {s : St} (h : Reach s) : Inv s := by
  induction h with
  | init => exact ⟨.empty rfl rfl rfl, fun h => by simp at h⟩
  | step _ t ih => exact inv_step ih t

/-- What is left of C43: in every reachable state at most one action was run, it is the first one dispatched, and it was run at most once.  Full claim: every
dispatched action is run; that is false, see below. -/
theorem C43_in_order_partial {s : St} (h : Reach s) : s.ran <+: s.dispatched := by
  cases (inv_of_reach h).shape with
  | empty h1 h2 h3 => simp only [List.append_eq_nil_iff] at h3; rw [h3.1.1]; exact List.nil_prefix
  | first b r h1 h2 h3 => simp only [List.append_eq_nil_iff] at h3; rw [h3.1.1]; exact List.nil_prefix
  | taken b r h1 h2 h3 =>
    rw [h2]
    cases hr : s.ran with
    | nil => exact List.nil_prefix
    | cons x l =>
      rw [hr] at h3
      simp only [List.cons_append, List.cons.injEq, List.append_eq_nil_iff] at h3
      rw [h3.1, h3.2.1.1]
      exact ⟨r, rfl⟩

/-- The first action: as long as it is neither run nor rejected, a thread in `run` which is not told to stop takes it in its next round, and the thread is not
asleep without a token. -/
theorem C43_first_partial {s : St} (h : Reach s) {a : Nat} {r : List Nat} (hd : s.dispatched = a :: r) (hr : s.ran = []) (hj : s.rejected = []) :
    (s.pc = .loop → s.needstop = false → (fetch s).pc = .act a) ∧ (s.pc = .idle → s.token = true) := by
  have hi := inv_of_reach h
  constructor
  · intro hp hn
    have hh : inHand s = [] := by simp [inHand, hp]
    cases hi.shape with
    | empty h1 h2 h3 => rw [h2] at hd; simp at hd
    | first b r' h1 h2 h3 =>
      rw [h2] at hd
      injection hd with e1 e2
      subst e1
      simp [fetch, hn, h1, getNextAction]
    | taken b r' h1 h2 h3 => rw [hr, hj, hh] at h3; simp at h3
  · intro hp
    have hh : inHand s = [] := by simp [inHand, hp]
    cases hi.shape with
    | empty h1 h2 h3 => rw [h2] at hd; simp at hd
    | first b r' h1 h2 h3 => exact hi.wake hp b (by simp [h1])
    | taken b r' h1 h2 h3 => rw [hr, hj, hh] at h3; simp at h3

/-- In every reachable state: no action but the first one dispatched has been run or rejected.  So of two different actions the second never happens, whatever
the threads do. -/
theorem C43_later_actions_violated {s : St} (h : Reach s) {a : Nat} {r : List Nat} (hd : s.dispatched = a :: r) :
    (∀ b ∈ s.ran ++ s.rejected, b = a) ∧ (s.ran ++ s.rejected).length ≤ 1 := by
  have hi := inv_of_reach h
  have key : s.ran ++ inHand s ++ s.rejected = [] ∨ s.ran ++ inHand s ++ s.rejected = [a] := by
    cases hi.shape with
    | empty h1 h2 h3 => exact .inl h3
    | first b r' h1 h2 h3 => exact .inl h3
    | taken b r' h1 h2 h3 =>
      rw [h2] at hd
      injection hd with e1 e2
      rw [← e1]
      exact .inr h3
  constructor
  · intro b hb
    have hm : b ∈ s.ran ++ inHand s ++ s.rejected := by
      rcases List.mem_append.1 hb with hb | hb <;> simp [hb]
    rcases key with e | e <;> rw [e] at hm <;> simp at hm
    exact hm
  · have hl : (s.ran ++ inHand s ++ s.rejected).length ≤ 1 := by rcases key with e | e <;> rw [e] <;> simp
    simp only [List.length_append] at hl ⊢
    omega

/-- Two actions, a whole life of the thread: the second one is neither run nor rejected. -/
theorem C43_violated : ∃ s, Reach s ∧ s.dispatched = [7, 8] ∧ s.ran = [7] ∧ s.rejected = [] ∧ s.pc = .out := by
  have h0 : Reach {} := .init
  have h1 := h0.step (.start _ rfl)
  have h2 := h1.step (.fetch _ rfl)
  have h3 := h2.step (.dispatch _ 7 (by decide))
  have h4 := h3.step (.dispatch _ 8 (by decide))
  have h5 := h4.step (.wake _ rfl)
  have h6 := h5.step (.fetch _ rfl)
  have h7 := h6.step (.act _ 7 true rfl)
  have h8 := h7.step (.fetch _ rfl)
  have h9 := h8.step (.quit _)
  have h10 := h9.step (.wake _ rfl)
  have h11 := h10.step (.fetch _ rfl)
  exact ⟨_, h11, by decide, by decide, by decide, by decide⟩

/-! ### C44 -/

theorem later_order : Heap.StrictWeak later :=
  ⟨fun a b h => by simp [later] at h ⊢; omega, fun a b c h1 h2 => by simp [later] at h1 h2 ⊢; omega⟩

/-- Scheduling a list of events. -/
def scheduleAll : List Item → Sched → Option Sched
  | [], s => some s
  | x :: xs, s => (schedule s x).bind (scheduleAll xs)

/-- A new scheduler. -/
def new : Sched := ⟨{ cont := [] }, []⟩

/-- `x` has the least time in `l`. -/
def Earliest (x : Item) (l : List Item) : Prop := x ∈ l ∧ ∀ y ∈ l, x.tm ≤ y.tm

theorem schedule_ok {s : Sched} (h : Heap.PGood later s.heap) (x : Item) :
    ∃ s', schedule s x = some s' ∧ Heap.PGood later s'.heap ∧ s'.heap.cont.Perm (s.heap.cont ++ [x]) ∧ s'.resolved = s.resolved := by
  obtain ⟨q, h1, h2, h3⟩ := Heap.pq_push later_order h x
  unfold Heap.PQ.push at h1
  cases hp : Heap.push later { s.heap with cont := s.heap.cont ++ [x] } with
  | none => rw [hp] at h1; simp at h1
  | some r =>
    rw [hp] at h1
    simp only [Option.map_some, Option.some.injEq] at h1
    exact ⟨⟨r.2, s.resolved⟩, by simp [schedule, hp], by rw [h1]; exact h2, by rw [h1]; exact h3, rfl⟩

theorem scheduleAll_ok (xs : List Item) : ∀ s, Heap.PGood later s.heap →
    ∃ s', scheduleAll xs s = some s' ∧ Heap.PGood later s'.heap ∧ s'.heap.cont.Perm (s.heap.cont ++ xs) ∧ s'.resolved = s.resolved := by
  induction xs with
  | nil => intro s h; exact ⟨s, rfl, h, by simp, rfl⟩
  | cons x xs ih =>
    intro s h
    obtain ⟨s1, a1, a2, a3, a4⟩ := schedule_ok h x
    obtain ⟨s2, b1, b2, b3, b4⟩ := ih s1 a2
    refine ⟨s2, by simp [scheduleAll, a1, b1], b2, b3.trans ?_, b4.trans a4⟩
    have := a3.append_right xs
    rwa [List.append_assoc] at this

theorem top_earliest {h : Heap.Heap Item} (hg : Heap.PGood later h) (hne : h.cont ≠ []) : ∃ x, h.cont[0]? = some x ∧ Earliest x h.cont := by
  have hl := List.length_pos_iff.2 hne
  refine ⟨h.cont[0], by simp [hl], List.getElem_mem hl, ?_⟩
  intro y hy
  obtain ⟨j, hj, rfl⟩ := List.getElem_of_mem hy
  have hall := hg.all
  have := Heap.heap_max later_order h.cont[0] (hg.heap h.cont[0]) j (by omega)
  simpa [Heap.g, Heap.le, later, hl, hj] using this

theorem pop_trunc {h : Heap.Heap Item} (hg : Heap.PGood later h) {x : Item} (hx : h.cont[0]? = some x) :
    ∃ h', Heap.pop later h = some (true, h') ∧ Heap.PGood later { h' with cont := Heap.trunc h'.cont 1 } ∧ (x :: Heap.trunc h'.cont 1).Perm h.cont := by
  have hall := hg.all
  have hl : 0 < h.cont.length := (List.getElem?_eq_some_iff.1 hx).1
  obtain ⟨h', b1, b2, b3, b4, b5, b6, -⟩ := Heap.pop_spec later_order hg.toGood (by omega)
  have ht : Heap.trunc h'.cont 1 = h'.cont.take (h.cont.length - 1) := by
    unfold Heap.trunc
    rw [show min 1 h'.cont.length = 1 by omega, b5]
  have hsplit : h'.cont = h'.cont.take (h.cont.length - 1) ++ [x] := by
    rw [hall, hx] at b6
    have := List.take_add_one (l := h'.cont) (i := h.cont.length - 1)
    rw [b6, List.take_of_length_le (by omega)] at this
    simpa using this
  refine ⟨h', b1, ?_, ?_⟩
  · rw [ht]
    refine ⟨⟨?_, ?_⟩, ?_⟩
    · simp; omega
    · intro d i i1 i2
      have i2 : i < h'.heapSize := i2
      have := b2.heap d i i1 i2
      simp only [Heap.g, List.getD_eq_getElem?_getD] at this ⊢
      rw [List.getElem?_take_of_lt (by omega), List.getElem?_take_of_lt (by omega)]
      exact this
    · simp; omega
  · rw [ht]
    refine List.Perm.trans ?_ b4
    conv => rhs; rw [hsplit]
    exact (List.perm_append_singleton x _).symm

/-- What holds of C44: for every set of scheduled events, `onIdle` finds the earliest one.  If it has not expired then nothing is resolved, nothing changes, and
the thread sleeps until its time; if it has, then this event (and no other) leaves the heap.  Full claim: this event's promise is resolved; that is false. -/
theorem C44_heap_partial (xs : List Item) (hne : xs ≠ []) (cur : Nat) :
    ∃ s x, scheduleAll xs new = some s ∧ s.heap.cont.Perm xs ∧ Earliest x xs ∧
      (¬ cur > x.tm → round cur s = .next s (some x.tm)) ∧
      (cur > x.tm → ∀ s', round cur s = .blocked s' → (x :: s'.heap.cont).Perm xs) := by
  obtain ⟨s, h1, h2, h3, h4⟩ := scheduleAll_ok xs new ⟨Heap.good_init [], rfl⟩
  have h3 : s.heap.cont.Perm xs := by simpa [new] using h3
  have hc : s.heap.cont ≠ [] := by
    intro e
    rw [e] at h3
    exact hne h3.symm.eq_nil
  have hsz : s.heap.heapSize ≠ 0 := by
    have := h2.all
    have := List.length_pos_iff.2 hc
    omega
  obtain ⟨x, hx, hx1, hx2⟩ := top_earliest h2 hc
  refine ⟨s, x, h1, h3, ⟨h3.mem_iff.1 hx1, fun y hy => hx2 y (h3.mem_iff.2 hy)⟩, ?_, ?_⟩
  · intro hd
    unfold round onIdle
    rw [if_neg hsz, hx]
    simp only
    rw [if_neg hd]
    simp [lock, unlock]
  · intro hd s' hr
    obtain ⟨h', p1, p2, p3⟩ := pop_trunc h2 hx
    unfold round onIdle at hr
    rw [if_neg hsz, hx] at hr
    simp only at hr
    rw [if_pos hd, p1] at hr
    simp only at hr
    cases ht : (Heap.trunc h'.cont 1)[0]? with
    | none => rw [ht] at hr; simp at hr
    | some y =>
      rw [ht] at hr
      simp only [unlock, lock] at hr
      simp only [Bool.false_eq_true, if_false, if_true, Out.blocked.injEq] at hr
      rw [← hr]
      exact p3.trans h3

/-- In general, when the earliest event has expired: with only one event a destroyed promise is used; with more events the promise resolved is that of the
second earliest one, which stays in the heap, the promise of the expired event is not resolved, and then the thread waits for its own lock for ever. -/
theorem C44_violated (xs : List Item) (hne : xs ≠ []) (cur : Nat) :
    ∃ s x, scheduleAll xs new = some s ∧ Earliest x xs ∧
      (cur > x.tm →
        (xs.length = 1 → round cur s = .ub) ∧
        (1 < xs.length → ∃ y s', round cur s = .blocked s' ∧ s'.resolved = [y.id] ∧ (x :: s'.heap.cont).Perm xs ∧ Earliest y s'.heap.cont)) := by
  obtain ⟨s, h1, h2, h3, h4⟩ := scheduleAll_ok xs new ⟨Heap.good_init [], rfl⟩
  have h3 : s.heap.cont.Perm xs := by simpa [new] using h3
  have hc : s.heap.cont ≠ [] := by
    intro e
    rw [e] at h3
    exact hne h3.symm.eq_nil
  have hsz : s.heap.heapSize ≠ 0 := by
    have := h2.all
    have := List.length_pos_iff.2 hc
    omega
  obtain ⟨x, hx, hx1, hx2⟩ := top_earliest h2 hc
  refine ⟨s, x, h1, ⟨h3.mem_iff.1 hx1, fun y hy => hx2 y (h3.mem_iff.2 hy)⟩, ?_⟩
  intro hd
  obtain ⟨h', p1, p2, p3⟩ := pop_trunc h2 hx
  have hlen : (Heap.trunc h'.cont 1).length + 1 = xs.length := by
    have := (p3.trans h3).length_eq
    simpa using this
  constructor
  · intro h1
    have : Heap.trunc h'.cont 1 = [] := List.length_eq_zero_iff.1 (by omega)
    unfold round onIdle
    rw [if_neg hsz, hx]
    simp only
    rw [if_pos hd, p1]
    simp [this]
  · intro h1
    obtain ⟨y, hy, hy'⟩ := top_earliest p2 (by show Heap.trunc h'.cont 1 ≠ []; intro e; rw [e] at hlen; simp at hlen; omega)
    refine ⟨y, ⟨{ h' with cont := Heap.trunc h'.cont 1 }, [y.id]⟩, ?_, rfl, p3.trans h3, hy'⟩
    unfold round onIdle
    rw [if_neg hsz, hx]
    simp only
    rw [if_pos hd, p1]
    simp only at hy ⊢
    rw [hy]
    simp [unlock, lock, h4, new]

/-- Three events: at time 6 the event for time 5 is due; the promise 2 for time 9 is resolved. -/
example : (scheduleAll [⟨12, 1⟩, ⟨9, 2⟩, ⟨5, 3⟩] new).map (round 6) = some (.blocked ⟨{ cont := [⟨9, 2⟩, ⟨12, 1⟩], heapSize := 2 }, [2]⟩) := by decide +kernel
example : (scheduleAll [⟨12, 1⟩, ⟨9, 2⟩, ⟨5, 3⟩] new).map (round 5) = (scheduleAll [⟨12, 1⟩, ⟨9, 2⟩, ⟨5, 3⟩] new).map fun s => .next s (some 5) := by decide +kernel

end LS.Dispatch

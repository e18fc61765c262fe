import Verif.Apc

namespace LS.Apc

/-- What holds at a place, given the queue and whether nothing was ever queued. -/
def Place (q : Nat) : Pc → Prop
  | .idle => True
  | .link a n => a ≠ 0 ∧ (n ≠ 0 → q ≠ 0)
  | .cas a n => a ≠ 0 ∧ (n ≠ 0 → q ≠ 0)
  | .load => True
  | .test k => k ≠ 0 ∧ q ≠ 0
  | .take _ => False
  | .walk k => k ≠ 0 ∧ q ≠ 0
  | .last _ => False
  | .reject k => k ≠ 0 → q ≠ 0

/-- In every state. -/
structure Inv (s : St) : Prop where
  pcs : ∀ t, Place s.queue (s.pc t)
  ran : s.ran = []
  rets : (s.queue = 0 ∧ s.rets = []) ∨ (s.queue ≠ 0 ∧ ∃ t a, a ≠ 0 ∧ s.rets = [(t, a, true)])

theorem place_mono {q q' : Nat} (h : q ≠ 0 → q' ≠ 0) {c : Pc} (hc : Place q c) : Place q' c := by
  cases c with
  | idle => trivial
  | link a n => exact ⟨hc.1, fun x => h (hc.2 x)⟩
  | cas a n => exact ⟨hc.1, fun x => h (hc.2 x)⟩
  | load => trivial
  | test k => exact ⟨hc.1, h hc.2⟩
  | take k => exact hc
  | walk k => exact ⟨hc.1, h hc.2⟩
  | last k => exact hc
  | reject k => exact fun x => h (hc x)

theorem inv_at (s : St) (h : Inv s) (t : Nat) (c : Pc) (hc : Place s.queue c) : Inv (s.at t c) := by
  refine ⟨fun x => ?_, h.ran, h.rets⟩
  show Place s.queue (if x = t then c else s.pc x)
  split
  · exact hc
  · exact h.pcs x

theorem inv_step (s : St) (h : Inv s) (t : Nat) : Inv (step s t) ∧ (s.queue ≠ 0 → (step s t).queue ≠ 0) := by
  have hp := h.pcs t
  unfold step
  cases hc : s.pc t with
  | idle => exact ⟨h, fun x => x⟩
  | link a n =>
    rw [hc] at hp
    exact ⟨inv_at (s.setNext a n) ⟨h.pcs, h.ran, h.rets⟩ t _ hp, fun x => x⟩
  | cas a n =>
    rw [hc] at hp
    simp only []
    by_cases hq : s.queue = 0
    · have hn : n = 0 := Decidable.byContradiction (fun x => hp.2 x hq)
      subst hn
      have hr : s.rets = [] := by
        rcases h.rets with x | x
        · exact x.2
        · exact absurd hq x.1
      rw [if_pos hq]
      refine ⟨inv_at ({ s with queue := if s.queue = 0 then a else s.queue, rets := s.rets ++ [(t, a, decide (0 = 0))] } : St) ⟨fun x => ?_, h.ran, ?_⟩ t .idle trivial, fun x => absurd hq x⟩
      · exact place_mono (fun x => absurd hq x) (h.pcs x)
      · refine .inr ⟨?_, t, a, hp.1, ?_⟩
        · show (if s.queue = 0 then a else s.queue) ≠ 0
          rw [if_pos hq]; exact hp.1
        · show s.rets ++ [(t, a, decide (0 = 0))] = _
          rw [hr]; rfl
    · rw [if_neg hq]
      have hq' : (if s.queue = n then a else s.queue) ≠ 0 := by
        split
        · exact hp.1
        · exact hq
      refine ⟨inv_at ({ s with queue := if s.queue = n then a else s.queue } : St) ⟨fun x => place_mono (fun _ => hq') (h.pcs x), h.ran, ?_⟩ t (.link a n) ⟨hp.1, fun _ => hq'⟩, fun _ => hq'⟩
      rcases h.rets with x | x
      · exact absurd x.1 hq
      · exact .inr ⟨hq', x.2⟩
  | load =>
    simp only []
    split
    · exact ⟨inv_at ({ s with done := s.done ++ [t] } : St) ⟨h.pcs, h.ran, h.rets⟩ t _ trivial, fun x => x⟩
    · next hq => exact ⟨inv_at s h t _ ⟨hq, hq⟩, fun x => x⟩
  | test k =>
    rw [hc] at hp
    simp only []
    rw [if_neg (show ¬ s.getNext k = 0 from hp.1)]
    exact ⟨inv_at s h t _ hp, fun x => x⟩
  | take k => rw [hc] at hp; exact hp.elim
  | walk k =>
    rw [hc] at hp
    simp only []
    rw [if_pos (show s.getNext (s.getNext k) ≠ 0 from hp.1)]
    exact ⟨inv_at s h t _ hp, fun x => x⟩
  | last k => rw [hc] at hp; exact hp.elim
  | reject k =>
    rw [hc] at hp
    simp only []
    split
    · exact ⟨inv_at ({ s with done := s.done ++ [t] } : St) ⟨h.pcs, h.ran, h.rets⟩ t _ trivial, fun x => x⟩
    · exact ⟨inv_at ({ s with rejected := s.rejected ++ [k] } : St) ⟨h.pcs, h.ran, h.rets⟩ t _ hp, fun x => x⟩

theorem inv_act (s : St) (h : Inv s) (o : Op) : Inv (act s o) ∧ (s.queue ≠ 0 → (act s o).queue ≠ 0) := by
  cases o with
  | execute t a =>
    unfold act
    simp only []
    split
    · next hx => exact ⟨inv_at s h t _ ⟨hx.2, fun x => x⟩, fun x => x⟩
    · exact ⟨h, fun x => x⟩
  | executeQueue t =>
    unfold act
    simp only []
    split
    · exact ⟨inv_at s h t _ trivial, fun x => x⟩
    · exact ⟨h, fun x => x⟩
  | rejectAll t =>
    unfold act
    simp only []
    split
    · exact ⟨inv_at s h t _ (fun x => x), fun x => x⟩
    · exact ⟨h, fun x => x⟩
  | go t => exact inv_step s h t

theorem inv_ops (l : List Op) : ∀ (s : St), Inv s → Inv (l.foldl act s) ∧ (s.queue ≠ 0 → (l.foldl act s).queue ≠ 0) := by
  induction l with
  | nil => intro s h; exact ⟨h, fun x => x⟩
  | cons o l ih =>
    intro s h
    obtain ⟨a, b⟩ := inv_act s h o
    obtain ⟨c, d⟩ := ih _ a
    exact ⟨c, fun x => d (b x)⟩

theorem run_snoc (l : List Op) (o : Op) : run (l ++ [o]) = act (run l) o := by
  unfold run; rw [List.foldl_append]; rfl

theorem inv_run (ops : List Op) : Inv (run ops) :=
  (inv_ops ops init ⟨fun _ => trivial, rfl, .inl ⟨rfl, rfl⟩⟩).1

/-- C150: the first message. On an empty queue, when no other thread comes between, `execute` queues the message and says
that the other side has to be told. -/
theorem C150_first_partial (ops : List Op) (t a : Nat) (ha : a ≠ 0) (hi : (run ops).pc t = .idle)
    (hq : (run ops).queue = 0) :
    let s := run (ops ++ [.execute t a, .go t, .go t])
    s.queue = a ∧ s.rets = [(t, a, true)] ∧ s.pc t = .idle ∧ s.next a = 0 := by
  have hr : (run ops).rets = [] := by
    rcases (inv_run ops).rets with h | h
    · exact h.2
    · exact absurd hq h.1
  have e : run (ops ++ [.execute t a, .go t, .go t]) = step (step (act (run ops) (.execute t a)) t) t := by
    unfold run; rw [List.foldl_append]; rfl
  simp only []
  rw [e]
  simp [act, hi, ha, hq, step, St.at, St.setNext, hr]

example : (run [.execute 1 7, .go 1, .go 1]).queue = 7 ∧ (run [.execute 1 7, .go 1, .go 1]).rets = [(1, 7, true)] := by
  decide +kernel

/-- C150: with nothing queued, the queue and the destructor end and call nothing. -/
theorem C150_empty_partial (ops : List Op) (t : Nat) (hi : (run ops).pc t = .idle) (hq : (run ops).queue = 0) :
    (run (ops ++ [.executeQueue t, .go t])).done = (run ops).done ++ [t] ∧
    (run (ops ++ [.executeQueue t, .go t])).ran = [] ∧
    (run (ops ++ [.rejectAll t, .go t])).done = (run ops).done ++ [t] ∧
    (run (ops ++ [.rejectAll t, .go t])).rejected = (run ops).rejected := by
  refine ⟨?_, (inv_run _).ran, ?_, ?_⟩ <;>
  · unfold run at *
    rw [List.foldl_append]
    simp [act, hi, hq, step, St.at, St.finish]

example : (run [.executeQueue 3, .go 3, .rejectAll 4, .go 4]).done = [3, 4] := by decide +kernel

/-- C150: no message ever runs, whatever is called by however many threads. -/
theorem C150_never_violated (ops : List Op) : (run ops).ran = [] := (inv_run ops).ran

/-- C150: the lines that take the last message or unlink the oldest one (apc.h:143-148, 153-156) are never reached. -/
theorem C150_dead_violated (ops : List Op) (t k : Nat) : (run ops).pc t ≠ .take k ∧ (run ops).pc t ≠ .last k := by
  have h := (inv_run ops).pcs t
  constructor <;> intro e <;> rw [e] at h <;> exact h

example : (run [.execute 1 7, .go 1, .go 1, .executeQueue 2, .go 2, .go 2, .go 2, .go 2]).pc 2 = .walk 7 := by decide +kernel

/-- C150: at most one call of `execute` ever returns; all the other callers write the link of their message for ever. -/
theorem C150_returns_violated (ops : List Op) : (run ops).rets.length ≤ 1 ∧ ∀ r ∈ (run ops).rets, r.2.2 = true := by
  rcases (inv_run ops).rets with ⟨_, h⟩ | ⟨_, t, a, _, h⟩
  · rw [h]; simp
  · rw [h]; simp

/-- C150: two messages one after the other in one thread: the second call does not end. -/
theorem C150_second_violated (n : Nat) :
    let s := run ([.execute 1 7, .go 1, .go 1, .execute 1 8] ++ List.replicate n (.go 1))
    s.pc 1 ≠ .idle ∧ s.rets = [(1, 7, true)] := by
  have key : ∀ n, ∃ s, run ([.execute 1 7, .go 1, .go 1, .execute 1 8] ++ List.replicate n (.go 1)) = s ∧
      s.rets = [(1, 7, true)] ∧ s.queue ≠ 0 ∧ (s.pc 1 = .link 8 7 ∨ s.pc 1 = .cas 8 7) := by
    intro n
    induction n with
    | zero => exact ⟨_, rfl, by decide +kernel, by decide +kernel, by decide +kernel⟩
    | succ n ih =>
      obtain ⟨s, e, h1, h2, h3⟩ := ih
      refine ⟨step s 1, ?_, ?_⟩
      · rw [List.replicate_succ', ← List.append_assoc]
        unfold run at *
        rw [List.foldl_append, e]; rfl
      · rcases h3 with h3 | h3
        · simp [step, h3, St.at, St.setNext, h1, h2]
        · simp [step, h3, St.at, h1, h2]
          split <;> simp_all
  obtain ⟨s, e, h1, _, h3⟩ := key n
  simp only []
  rw [e]
  exact ⟨by rcases h3 with h | h <;> rw [h] <;> simp, h1⟩

/-- C150: a queue with a message is never empty again, and never ends: from then on `executeQueue` does not return, nor does
the destructor. -/
theorem C150_stays_violated (ops more : List Op) (h : (run ops).queue ≠ 0) : (run (ops ++ more)).queue ≠ 0 := by
  have := (inv_ops more (run ops) (inv_run ops)).2 h
  unfold run at *
  rw [List.foldl_append]; exact this

/-- A thread that handles the queue or rejects. -/
def Busy (k : Nat) (s : St) (t : Nat) : Prop := k ≠ 0 ∧ (s.pc t = .test k ∨ s.pc t = .walk k)

/-- C150: `executeQueue` of a queue with a message: any number of steps does not end it, and changes nothing. -/
theorem C150_runs_violated (ops : List Op) (t n : Nat) (hi : (run ops).pc t = .idle) (hq : (run ops).queue ≠ 0) :
    let s := run (ops ++ [.executeQueue t] ++ List.replicate n (.go t))
    s.pc t ≠ .idle ∧ s.done = (run ops).done ∧ s.queue = (run ops).queue := by
  have key : ∀ n, ∃ s, run (ops ++ [.executeQueue t] ++ List.replicate n (.go t)) = s ∧ s.done = (run ops).done ∧
      s.queue = (run ops).queue ∧ (s.pc t = .load ∨ Busy (run ops).queue s t) := by
    intro n
    induction n with
    | zero =>
      refine ⟨(run ops).at t .load, ?_, rfl, rfl, .inl (by simp [St.at])⟩
      unfold run at *
      simp [act, hi]
    | succ n ih =>
      obtain ⟨s, e, h1, h2, h3⟩ := ih
      refine ⟨step s t, ?_, ?_⟩
      · rw [List.replicate_succ', ← List.append_assoc]
        rw [run_snoc, e]; rfl
      · rcases h3 with h3 | ⟨_, h3 | h3⟩
        · simp [step, h3, St.at, h2, hq, h1, Busy]
        · simp [step, h3, St.at, St.getNext, h2, hq, h1, Busy]
        · simp [step, h3, St.at, St.getNext, h2, hq, h1, Busy]
  obtain ⟨s, e, h1, h2, h3⟩ := key n
  simp only []
  rw [e]
  exact ⟨by rcases h3 with h | ⟨_, h | h⟩ <;> rw [h] <;> simp, h1, h2⟩

/-- C150: the destructor of a server with a message tells this message again and again that it is rejected. -/
theorem C150_destroy_violated (ops : List Op) (t n : Nat) (hi : (run ops).pc t = .idle) (hq : (run ops).queue ≠ 0) :
    let s := run (ops ++ [.rejectAll t] ++ List.replicate n (.go t))
    s.pc t ≠ .idle ∧ s.rejected = (run ops).rejected ++ List.replicate n (run ops).queue := by
  have key : ∀ n, ∃ s, run (ops ++ [.rejectAll t] ++ List.replicate n (.go t)) = s ∧
      s.rejected = (run ops).rejected ++ List.replicate n (run ops).queue ∧ s.pc t = .reject (run ops).queue := by
    intro n
    induction n with
    | zero =>
      refine ⟨(run ops).at t (.reject (run ops).queue), ?_, by simp [St.at], by simp [St.at]⟩
      unfold run at *
      simp [act, hi]
    | succ n ih =>
      obtain ⟨s, e, h1, h2⟩ := ih
      refine ⟨step s t, ?_, ?_⟩
      · rw [List.replicate_succ', ← List.append_assoc]
        rw [run_snoc, e]; rfl
      · simp [step, h2, St.at, St.getNext, hq, h1, List.replicate_succ']
  obtain ⟨s, e, h1, h2⟩ := key n
  simp only []
  rw [e]
  exact ⟨by rw [h2]; simp, h1⟩

/-- C150: two threads at once: both see an empty queue, the second one writes its link for ever and its message is not
queued. -/
theorem C150_race_violated :
    let s := run [.execute 1 7, .execute 2 8, .go 1, .go 2, .go 1, .go 2]
    s.queue = 7 ∧ s.rets = [(1, 7, true)] ∧ s.pc 2 = .link 8 0 := by decide +kernel

end LS.Apc

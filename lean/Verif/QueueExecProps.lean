import Verif.QueueExec

/-
The executor with a queue (C146).
-/

namespace LS.QueueExec

/-! ### Specification -/

/-- The thread is in `serve`. -/
def Inside (s : St) (i : Nat) : Prop := ∃ p, pcOf s i = some p ∧ p ≠ .out

/-- The thread can go on by itself. -/
def Awake (s : St) (i : Nat) : Prop := ∃ p, pcOf s i = some p ∧ p ≠ .out ∧ p ≠ .waiting

/-- The states of programs with `n` threads and operations that satisfy `P`. -/
inductive Reach (P : Op → Prop) (n : Nat) (f : Bool) : St → Prop where
  | start : Reach P n f (start n f)
  | step {s s' o} : Reach P n f s → P o → step s o = some s' → Reach P n f s'

def Any : Op → Prop := fun _ => True

/-! ### Places -/

def inside (t : Th) : Bool := t.pc != .out

theorem goto_some {s : St} {i : Nat} {t : Th} (h : s.th[i]? = some t) (p : PC) :
    goto s i p = { s with th := s.th.set i { t with pc := p } } := by simp only [goto, h]

theorem pc_goto (s : St) (i : Nat) (p : PC) (k : Nat) :
    pcOf (goto s i p) k = if k = i then (pcOf s i).map (fun _ => p) else pcOf s k := by
  cases h : s.th[i]? with
  | none =>
    have : goto s i p = s := by simp only [goto, h]
    rw [this]
    by_cases hk : k = i
    · subst hk; simp [pcOf, h]
    · rw [if_neg hk]
  | some t =>
    rw [goto_some h]
    have hl : i < s.th.length := (List.getElem?_eq_some_iff.1 h).1
    by_cases hk : k = i
    · subst hk; simp [pcOf, hl]
    · rw [if_neg hk]
      simp only [pcOf]
      rw [List.getElem?_set_ne (by omega)]

theorem cf_goto (s : St) (i : Nat) (p : PC) (k : Nat) : cfOf (goto s i p) k = cfOf s k := by
  cases h : s.th[i]? with
  | none =>
    have : goto s i p = s := by simp only [goto, h]
    rw [this]
  | some t =>
    rw [goto_some h]
    have hl : i < s.th.length := (List.getElem?_eq_some_iff.1 h).1
    by_cases hk : k = i
    · subst hk
      have h2 : s.th[k] = t := (List.getElem?_eq_some_iff.1 h).2
      simp [cfOf, hl, h2]
    · simp only [cfOf]
      rw [List.getElem?_set_ne (by omega)]

theorem cnt_goto (s : St) (i : Nat) (p q : PC) (h : pcOf s i = some q) :
    (goto s i p).th.countP inside + (if q = .out then 0 else 1) =
      s.th.countP inside + (if p = .out then 0 else 1) := by
  obtain ⟨t, ht, hq⟩ := Option.map_eq_some_iff.1 h
  obtain ⟨hl, he⟩ := List.getElem?_eq_some_iff.1 ht
  rw [goto_some ht]
  show (s.th.set i { t with pc := p }).countP inside + _ = _
  rw [List.countP_set hl, he]
  have hb : ∀ r : PC, ∀ c, inside ⟨r, c⟩ = true ↔ r ≠ .out := by intro r c; simp [inside]
  have h1 : inside t = true ↔ q ≠ .out := by rw [← hq]; exact hb t.pc t.cf
  have h2 : inside { t with pc := p } = true ↔ p ≠ .out := hb p t.cf
  have h3 : q ≠ .out → 0 < s.th.countP inside := by
    intro hne
    exact List.countP_pos_iff.2 ⟨t, List.mem_of_getElem? ht, h1.2 hne⟩
  by_cases hqo : q = .out
  · have : inside t = false := by cases hh : inside t with
      | false => rfl
      | true => exact absurd hqo (h1.1 hh)
    by_cases hpo : p = .out
    · have h4 : inside { t with pc := p } = false := by cases hh : inside { t with pc := p } with
        | false => rfl
        | true => exact absurd hpo (h2.1 hh)
      simp [this, hqo, hpo]
      simp [inside]
    · simp [this, hqo, h2.2 hpo, hpo]
  · have h5 := h3 hqo
    by_cases hpo : p = .out
    · have h4 : inside { t with pc := p } = false := by cases hh : inside { t with pc := p } with
        | false => rfl
        | true => exact absurd hpo (h2.1 hh)
      subst hpo
      rw [h4]
      simp only [h1.2 hqo, hqo, if_true, if_false, Bool.false_eq_true]
      omega
    · simp only [h1.2 hqo, h2.2 hpo, hqo, hpo, if_true, if_false]
      omega

@[simp] theorem goto_queue (s : St) (i : Nat) (p : PC) : (goto s i p).queue = s.queue := by unfold goto; split <;> rfl
@[simp] theorem goto_sem (s : St) (i : Nat) (p : PC) : (goto s i p).sem = s.sem := by unfold goto; split <;> rfl
@[simp] theorem goto_wq (s : St) (i : Nat) (p : PC) : (goto s i p).wq = s.wq := by unfold goto; split <;> rfl
@[simp] theorem goto_running (s : St) (i : Nat) (p : PC) : (goto s i p).running = s.running := by unfold goto; split <;> rfl
@[simp] theorem goto_threadsIn (s : St) (i : Nat) (p : PC) : (goto s i p).threadsIn = s.threadsIn := by unfold goto; split <;> rfl
@[simp] theorem goto_isOpen (s : St) (i : Nat) (p : PC) : (goto s i p).isOpen = s.isOpen := by unfold goto; split <;> rfl
@[simp] theorem goto_finish (s : St) (i : Nat) (p : PC) : (goto s i p).finish = s.finish := by unfold goto; split <;> rfl
@[simp] theorem goto_acc (s : St) (i : Nat) (p : PC) : (goto s i p).acc = s.acc := by unfold goto; split <;> rfl
@[simp] theorem goto_gone (s : St) (i : Nat) (p : PC) : (goto s i p).gone = s.gone := by unfold goto; split <;> rfl
@[simp] theorem goto_started (s : St) (i : Nat) (p : PC) : (goto s i p).started = s.started := by unfold goto; split <;> rfl

/-! ### The semaphore and the count of threads -/

structure Core (s : St) : Prop where
  a : ∀ j, j ∈ s.wq ↔ pcOf s j = some .waiting
  b : s.wq.Nodup
  c : 0 < s.sem → s.wq = []
  d : s.sem ≤ 1
  e : s.threadsIn = s.th.countP inside
  l : s.isOpen = true → s.threadsIn = 0

theorem Core.goto {s : St} (h : Core s) {i : Nat} {q : PC} (p : PC) (hq : pcOf s i = some q)
    (h1 : q ≠ .waiting) (h2 : p ≠ .waiting) (h3 : q ≠ .out) (h4 : p ≠ .out) : Core (goto s i p) := by
  refine ⟨?_, by simpa using h.b, by simpa using h.c, by simpa using h.d, ?_, by simpa using h.l⟩
  · intro j
    rw [goto_wq, h.a j, pc_goto]
    by_cases hj : j = i
    · rw [if_pos hj, hj, hq]
      constructor
      · intro hh; exact absurd (Option.some.inj hh) h1
      · intro hh; exact absurd (Option.some.inj hh) h2
    · rw [if_neg hj]
  · have := cnt_goto s i p q hq
    rw [if_neg h3, if_neg h4] at this
    rw [goto_threadsIn, h.e]
    omega

theorem Core.sem0 {s : St} (h : Core s) : Core { s with sem := s.sem - 1 } :=
  ⟨h.a, h.b, fun hh => h.c (by have : 0 < s.sem - 1 := hh; omega), by have := h.d; show s.sem - 1 ≤ 1; omega, h.e, h.l⟩

theorem Core.lock {s : St} (h : Core s) {i : Nat} (hi : pcOf s i = some .idle) :
    Core (lockAsync s i) ∧
    (∀ k, k ≠ i → pcOf (lockAsync s i) k = pcOf s k) ∧
    (if 0 < s.sem then pcOf (lockAsync s i) i = some .check ∧ (lockAsync s i).sem = s.sem - 1
      else pcOf (lockAsync s i) i = some .waiting ∧ (lockAsync s i).sem = s.sem) := by
  by_cases hs : 0 < s.sem
  · have e : lockAsync s i = LS.QueueExec.goto { s with sem := s.sem - 1 } i .check := by simp only [lockAsync, if_pos hs]
    rw [e, if_pos hs]
    refine ⟨h.sem0.goto _ (q := .idle) hi (by decide) (by decide) (by decide) (by decide), ?_, ?_, by simp⟩
    · intro k hk; rw [pc_goto, if_neg hk]; rfl
    · rw [pc_goto, if_pos rfl]
      show (pcOf s i).map _ = _
      rw [hi]; rfl
  · have e : lockAsync s i = LS.QueueExec.goto { s with wq := s.wq ++ [i] } i .waiting := by simp only [lockAsync, if_neg hs]
    have hpc : ∀ k, pcOf { s with wq := s.wq ++ [i] } k = pcOf s k := fun _ => rfl
    have hi' : pcOf (LS.QueueExec.goto { s with wq := s.wq ++ [i] } i .waiting) i = some .waiting := by
      rw [pc_goto, if_pos rfl, hpc, hi]; rfl
    rw [e, if_neg hs]
    have hnot : i ∉ s.wq := by
      intro hm
      have := (h.a i).1 hm
      rw [hi] at this
      exact absurd (Option.some.inj this) (by decide)
    refine ⟨⟨?_, ?_, ?_, by simpa using h.d, ?_, by simpa using h.l⟩, ?_, hi', by simp⟩
    · intro j
      rw [goto_wq]
      by_cases hj : j = i
      · rw [hj, hi']; simp
      · rw [pc_goto, if_neg hj, hpc, ← h.a j]
        simp [hj]
    · rw [goto_wq]
      show (s.wq ++ [i]).Nodup
      rw [List.nodup_append]
      refine ⟨h.b, by simp, ?_⟩
      intro x hx y hy hxy
      rw [List.mem_singleton] at hy
      exact hnot (by rw [← hy, ← hxy]; exact hx)
    · intro hh
      rw [goto_sem] at hh
      exact absurd hh hs
    · have := cnt_goto { s with wq := s.wq ++ [i] } i .waiting .idle hi
      simp only [reduceCtorEq, if_false] at this
      rw [goto_threadsIn]
      show s.threadsIn = _
      have h0 := h.e
      omega
    · intro k hk; rw [pc_goto, if_neg hk]; rfl

theorem Core.unlock {s : St} (h : Core s) (h0 : s.sem = 0) :
    Core (unlock s) ∧
    (∀ k, pcOf (unlock s) k = pcOf s k ∨ (pcOf s k = some .waiting ∧ pcOf (unlock s) k = some .check)) ∧
    (0 < (unlock s).sem ∨ ∃ j, pcOf (unlock s) j = some .check) := by
  cases hw : s.wq with
  | nil =>
    have e : LS.QueueExec.unlock s = { s with sem := s.sem + 1 } := by simp only [LS.QueueExec.unlock, hw]
    rw [e]
    exact ⟨⟨h.a, h.b, fun _ => hw, by show s.sem + 1 ≤ 1; omega, h.e, h.l⟩, fun k => Or.inl rfl, Or.inl (by show 0 < s.sem + 1; omega)⟩
  | cons j q =>
    have e : LS.QueueExec.unlock s = LS.QueueExec.goto { s with wq := q } j .check := by simp only [LS.QueueExec.unlock, hw]
    rw [e]
    have hpc : ∀ k, pcOf { s with wq := q } k = pcOf s k := fun _ => rfl
    have hj : pcOf s j = some .waiting := (h.a j).1 (by rw [hw]; exact List.mem_cons_self)
    have hnd := h.b
    rw [hw, List.nodup_cons] at hnd
    have hc : pcOf (LS.QueueExec.goto { s with wq := q } j .check) j = some .check := by
      rw [pc_goto, if_pos rfl, hpc, hj]; rfl
    refine ⟨⟨?_, ?_, ?_, by simpa using h.d, ?_, by simpa using h.l⟩, ?_, Or.inr ⟨j, hc⟩⟩
    · intro k
      rw [goto_wq]
      show k ∈ q ↔ _
      by_cases hk : k = j
      · rw [hk, hc]
        constructor
        · intro hm; exact absurd hm hnd.1
        · intro hm; exact absurd (Option.some.inj hm) (by decide)
      · rw [pc_goto, if_neg hk, hpc, ← h.a k, hw]
        simp [hk]
    · rw [goto_wq]; exact hnd.2
    · intro hh
      rw [goto_sem] at hh
      have : 0 < s.sem := hh
      omega
    · have := cnt_goto { s with wq := q } j .check .waiting hj
      simp only [reduceCtorEq, if_false] at this
      rw [goto_threadsIn]
      show s.threadsIn = _
      have h0 := h.e
      omega
    · intro k
      by_cases hk : k = j
      · exact Or.inr ⟨by rw [hk]; exact hj, by rw [hk]; exact hc⟩
      · left; rw [pc_goto, if_neg hk, hpc]

/-- What the data are. -/
def Same (s s' : St) : Prop :=
  s'.queue = s.queue ∧ s'.finish = s.finish ∧ s'.isOpen = s.isOpen ∧ s'.threadsIn = s.threadsIn ∧
  s'.acc = s.acc ∧ s'.gone = s.gone ∧ s'.started = s.started ∧ s'.running = s.running ∧ s'.th.length = s.th.length ∧
  ∀ k, cfOf s' k = cfOf s k

theorem Same.trans {a b c : St} (h1 : Same a b) (h2 : Same b c) : Same a c := by
  obtain ⟨a1, a2, a3, a4, a5, a6, a7, a8, a9, a10⟩ := h1
  obtain ⟨b1, b2, b3, b4, b5, b6, b7, b8, b9, b10⟩ := h2
  exact ⟨b1.trans a1, b2.trans a2, b3.trans a3, b4.trans a4, b5.trans a5, b6.trans a6, b7.trans a7, b8.trans a8,
    b9.trans a9, fun k => (b10 k).trans (a10 k)⟩

theorem goto_length (s : St) (i : Nat) (p : PC) : (goto s i p).th.length = s.th.length := by
  unfold goto; split <;> simp

theorem goto_same (s : St) (i : Nat) (p : PC) : Same s (goto s i p) := by
  refine ⟨?_, ?_, ?_, ?_, ?_, ?_, ?_, ?_, goto_length s i p, cf_goto s i p⟩ <;> simp

theorem lock_same (s : St) (i : Nat) : Same s (lockAsync s i) := by
  unfold lockAsync
  split
  · exact (goto_same { s with sem := s.sem - 1 } i .check)
  · exact (goto_same { s with wq := s.wq ++ [i] } i .waiting)

theorem unlock_same (s : St) : Same s (unlock s) := by
  unfold unlock
  split
  · rename_i j q hq
    exact goto_same { s with wq := q } j .check
  · exact ⟨rfl, rfl, rfl, rfl, rfl, rfl, rfl, rfl, rfl, fun _ => rfl⟩

theorem wake_same (s : St) (mid : Option Nat) : Same s (wake s mid) := by
  have h0 : Same s { s with sem := s.sem - 1 } := ⟨rfl, rfl, rfl, rfl, rfl, rfl, rfl, rfl, rfl, fun _ => rfl⟩
  cases mid with
  | none => exact h0.trans (unlock_same _)
  | some j =>
    simp only [wake]
    split
    · exact h0.trans ((lock_same _ j).trans (unlock_same _))
    · exact h0.trans (unlock_same _)

theorem Core.wake {s : St} (h : Core s) (mid : Option Nat) :
    Core (wake s mid) ∧
    (∀ k, pcOf (wake s mid) k = pcOf s k ∨
      ((pcOf s k = some .idle ∨ pcOf s k = some .waiting) ∧ pcOf (wake s mid) k = some .check) ∨
      (pcOf s k = some .idle ∧ pcOf (wake s mid) k = some .waiting)) ∧
    (0 < (wake s mid).sem ∨ ∃ j, pcOf (wake s mid) j = some .check) := by
  have hs : ({ s with sem := s.sem - 1 } : St).sem = 0 := by
    have := h.d
    show s.sem - 1 = 0
    omega
  have plain : Core (LS.QueueExec.unlock { s with sem := s.sem - 1 }) ∧
    (∀ k, pcOf (LS.QueueExec.unlock { s with sem := s.sem - 1 }) k = pcOf s k ∨
      ((pcOf s k = some .idle ∨ pcOf s k = some .waiting) ∧ pcOf (LS.QueueExec.unlock { s with sem := s.sem - 1 }) k = some .check) ∨
      (pcOf s k = some .idle ∧ pcOf (LS.QueueExec.unlock { s with sem := s.sem - 1 }) k = some .waiting)) ∧
    (0 < (LS.QueueExec.unlock { s with sem := s.sem - 1 }).sem ∨ ∃ j, pcOf (LS.QueueExec.unlock { s with sem := s.sem - 1 }) j = some .check) := by
    obtain ⟨a, b, c⟩ := h.sem0.unlock hs
    refine ⟨a, ?_, c⟩
    intro k
    rcases b k with b | ⟨b1, b2⟩
    · exact Or.inl b
    · exact Or.inr (Or.inl ⟨Or.inr b1, b2⟩)
  cases mid with
  | none => exact plain
  | some j =>
    by_cases hj : pcOf s j = some .idle
    · have e : LS.QueueExec.wake s (some j) = LS.QueueExec.unlock (lockAsync { s with sem := s.sem - 1 } j) := by
        simp only [LS.QueueExec.wake, if_pos hj]
      rw [e]
      obtain ⟨a1, a2, a3⟩ := h.sem0.lock (i := j) hj
      rw [if_neg (by rw [hs]; exact Nat.lt_irrefl 0)] at a3
      obtain ⟨b1, b2, b3⟩ := a1.unlock (by rw [a3.2, hs])
      refine ⟨b1, ?_, b3⟩
      intro k
      by_cases hk : k = j
      · subst hk
        rcases b2 k with b | ⟨_, b⟩
        · exact Or.inr (Or.inr ⟨hj, by rw [b, a3.1]⟩)
        · exact Or.inr (Or.inl ⟨Or.inl hj, b⟩)
      · have h1 : pcOf (lockAsync { s with sem := s.sem - 1 } j) k = pcOf s k := a2 k hk
        rcases b2 k with b | ⟨b, b'⟩
        · exact Or.inl (by rw [b, h1])
        · exact Or.inr (Or.inl ⟨Or.inr (by rw [← h1]; exact b), b'⟩)
    · have e : LS.QueueExec.wake s (some j) = LS.QueueExec.unlock { s with sem := s.sem - 1 } := by
        simp only [LS.QueueExec.wake, if_neg hj]
      rw [e]
      exact plain

/-- Threads that will look at the queue again. -/
def act : PC → Bool
  | .check => true
  | .work _ => true
  | .store _ => true
  | .relock => true
  | .leave => true
  | _ => false

structure Inv (s : St) : Prop where
  core : Core s
  f : s.finish = true → s.queue = []
  g : s.acc = s.gone ++ s.queue
  h : s.started.Sublist s.gone
  k : s.finish = true → 0 < s.threadsIn → 0 < s.sem ∨ ∃ i, pcOf s i = some .check ∨ pcOf s i = some .leave
  m : (∀ i, cfOf s i = false) → s.queue ≠ [] → 0 < s.threadsIn →
    0 < s.sem ∨ ∃ i p, pcOf s i = some p ∧ act p = true

theorem wake_inv {s : St} (hc : Core s) (f : s.finish = true → s.queue = []) (g : s.acc = s.gone ++ s.queue)
    (h : s.started.Sublist s.gone) (mid : Option Nat) : Inv (wake s mid) := by
  obtain ⟨s1, s2, s3, s4, s5, s6, s7, s8, s9, s10⟩ := wake_same s mid
  obtain ⟨a, b, c⟩ := hc.wake mid
  refine ⟨a, by rw [s1, s2]; exact f, by rw [s1, s5, s6]; exact g, by rw [s6, s7]; exact h, ?_, ?_⟩
  · intro _ _
    rcases c with c | ⟨j, c⟩
    · exact Or.inl c
    · exact Or.inr ⟨j, Or.inl c⟩
  · intro _ _ _
    rcases c with c | ⟨j, c⟩
    · exact Or.inl c
    · exact Or.inr ⟨j, _, c, rfl⟩

theorem start_pc (n : Nat) (f : Bool) (i : Nat) (p : PC) (h : pcOf (start n f) i = some p) : p = .out := by
  obtain ⟨t, h1, h2⟩ := Option.map_eq_some_iff.1 h
  have := List.mem_of_getElem? h1
  have := (List.mem_replicate.1 this).2
  rw [← h2, this]

theorem start_inv (n : Nat) (f : Bool) : Inv (start n f) := by
  refine ⟨⟨?_, List.nodup_nil, fun _ => rfl, Nat.le_refl _, ?_, ?_⟩, fun _ => rfl, rfl, List.Sublist.refl _, ?_, ?_⟩
  · intro j
    constructor
    · intro h; cases h
    · intro h; exact absurd (start_pc n f j _ h) (by decide)
  · show 0 = _
    symm
    rw [List.countP_eq_zero]
    intro t ht
    rw [(List.mem_replicate.1 ht).2]
    decide
  · intro h; cases h
  · intro _ h; exact absurd h (Nat.lt_irrefl 0)
  · intro _ _ h; exact absurd h (Nat.lt_irrefl 0)

theorem pc_self {s : St} {i : Nat} {q : PC} (p : PC) (h : pcOf s i = some q) : pcOf (goto s i p) i = some p := by
  rw [pc_goto, if_pos rfl, h]; rfl

/-- A step that only moves a thread which is not counted by `k` to a place which is counted by `m`. -/
theorem goto_act {s : St} (v : Inv s) {i : Nat} {q : PC} (p : PC) (hq : pcOf s i = some q)
    (h1 : q ≠ .waiting) (h2 : q ≠ .out) (h3 : q ≠ .check) (h4 : q ≠ .leave) (hp : act p = true) : Inv (goto s i p) := by
  have hpw : p ≠ .waiting := by rintro rfl; cases hp
  have hpo : p ≠ .out := by rintro rfl; cases hp
  refine ⟨v.core.goto p hq h1 hpw h2 hpo, by simpa using v.f, by simpa using v.g, by simpa using v.h, ?_, ?_⟩
  · intro hf ht
    simp only [goto_finish, goto_threadsIn, goto_sem] at hf ht ⊢
    rcases v.k hf ht with h | ⟨j, h⟩
    · exact Or.inl h
    · right
      have hj : j ≠ i := by
        rintro rfl
        rw [hq] at h
        rcases h with h | h
        · exact h3 (Option.some.inj h)
        · exact h4 (Option.some.inj h)
      exact ⟨j, by rw [pc_goto, if_neg hj]; exact h⟩
  · intro _ _ _
    exact Or.inr ⟨i, p, pc_self p hq, hp⟩

theorem take_inv {s : St} (v : Inv s) {i : Nat} {q : PC} (hq : pcOf s i = some q)
    (h1 : q ≠ .waiting) (h2 : q ≠ .out) (hf : s.finish = false) : Inv (take s i) := by
  cases hqu : s.queue with
  | nil =>
    have e : take s i = goto s i .idle := by simp only [take, hqu]
    rw [e]
    refine ⟨v.core.goto _ hq h1 (by decide) h2 (by decide), by simpa using v.f, by simpa using v.g, by simpa using v.h, ?_, ?_⟩
    · intro hh; rw [goto_finish, hf] at hh; cases hh
    · intro _ hh; rw [goto_queue, hqu] at hh; exact absurd rfl hh
  | cons a r =>
    have e : take s i = goto { s with queue := r, running := s.running + 1, gone := s.gone ++ [a], started := s.started ++ [a] } i (.work a) := by
      simp only [take, hqu]
    rw [e]
    have hc : Core { s with queue := r, running := s.running + 1, gone := s.gone ++ [a], started := s.started ++ [a] } :=
      ⟨v.core.a, v.core.b, v.core.c, v.core.d, v.core.e, v.core.l⟩
    have hq' : pcOf { s with queue := r, running := s.running + 1, gone := s.gone ++ [a], started := s.started ++ [a] } i = some q := hq
    refine ⟨hc.goto _ hq' h1 (by simp) h2 (by simp), ?_, ?_, ?_, ?_, ?_⟩
    · intro hh
      rw [goto_finish] at hh
      rw [show s.finish = true from hh] at hf
      cases hf
    · rw [goto_acc, goto_gone, goto_queue]
      show s.acc = (s.gone ++ [a]) ++ r
      rw [v.g, hqu]; simp
    · rw [goto_started, goto_gone]
      exact v.h.append (List.Sublist.refl _)
    · intro hh
      rw [goto_finish] at hh
      rw [show s.finish = true from hh] at hf
      cases hf
    · intro _ _ _
      exact Or.inr ⟨i, _, pc_self _ hq', rfl⟩

theorem cf_set {s : St} {i : Nat} {t : Th} (h : s.th[i]? = some t) :
    (∀ k, pcOf { s with th := s.th.set i { t with cf := true } } k = pcOf s k) ∧
    cfOf { s with th := s.th.set i { t with cf := true } } i = true ∧
    (s.th.set i { t with cf := true }).countP inside = s.th.countP inside := by
  obtain ⟨hl, he⟩ := List.getElem?_eq_some_iff.1 h
  refine ⟨?_, ?_, ?_⟩
  · intro k
    by_cases hk : k = i
    · subst hk; simp [pcOf, hl, he]
    · simp only [pcOf]
      rw [List.getElem?_set_ne (by omega)]
  · simp [cfOf, hl]
  · rw [List.countP_set hl, he]
    have : inside { t with cf := true } = inside t := rfl
    rw [this]
    cases hi : inside t with
    | false => simp
    | true =>
      have : 0 < s.th.countP inside := List.countP_pos_iff.2 ⟨t, List.mem_of_getElem? h, hi⟩
      simp only [if_true]
      omega

theorem core_leave {s : St} (v : Inv s) {i : Nat} (hi : pcOf s i = some .leave) :
    Core (goto { s with threadsIn := s.threadsIn - 1 } i .out) := by
  have hi' : pcOf { s with threadsIn := s.threadsIn - 1 } i = some .leave := hi
  have hcnt := cnt_goto { s with threadsIn := s.threadsIn - 1 } i .out .leave hi'
  simp only [reduceCtorEq, if_false, if_true] at hcnt
  have h0 := v.core.e
  refine ⟨?_, by simpa using v.core.b, by simpa using v.core.c, by simpa using v.core.d, ?_, ?_⟩
  · intro j
    rw [goto_wq, pc_goto]
    show j ∈ s.wq ↔ _
    rw [v.core.a j]
    by_cases hj : j = i
    · rw [if_pos hj, hj, hi', hi]
      constructor
      · intro h; exact absurd (Option.some.inj h) (by decide)
      · intro h; exact absurd (Option.some.inj h) (by decide)
    · rw [if_neg hj]; rfl
  · rw [goto_threadsIn]
    show s.threadsIn - 1 = _
    omega
  · rw [goto_threadsIn, goto_isOpen]
    intro h
    show s.threadsIn - 1 = 0
    have : s.threadsIn = 0 := v.core.l h
    omega

theorem step_inv {s s' : St} {o : Op} (v : Inv s) (hs : step s o = some s') : Inv s' := by
  cases o with
  | execute a mid =>
    simp only [step, Option.some.injEq] at hs
    subst hs
    unfold execute
    by_cases hf : s.finish = true
    · rw [if_pos hf]; exact v
    · rw [if_neg hf]
      refine wake_inv (s := { s with queue := s.queue ++ [a], acc := s.acc ++ [a] }) ⟨v.core.a, v.core.b, v.core.c, v.core.d, v.core.e, v.core.l⟩ ?_ ?_ v.h mid
      · intro hh; exact absurd hh hf
      · show s.acc ++ [a] = s.gone ++ (s.queue ++ [a])
        rw [v.g]; simp
  | finish mid =>
    simp only [step, Option.some.injEq] at hs
    subst hs
    refine wake_inv (s := { s with gone := s.gone ++ s.queue, queue := [], finish := true }) ⟨v.core.a, v.core.b, v.core.c, v.core.d, v.core.e, v.core.l⟩ (fun _ => rfl) ?_ ?_ mid
    · show s.acc = (s.gone ++ s.queue) ++ []
      rw [v.g]; simp
    · exact v.h.trans (List.sublist_append_left _ _)
  | reset =>
    simp only [step, Option.some.injEq] at hs
    subst hs
    exact ⟨⟨v.core.a, v.core.b, v.core.c, v.core.d, v.core.e, v.core.l⟩, (by intro h; cases h), v.g, v.h, (by intro h; cases h), v.m⟩
  | cancel i =>
    simp only [step] at hs
    cases ht : s.th[i]? with
    | none => rw [ht] at hs; cases hs
    | some t =>
      rw [ht] at hs
      simp only [Option.some.injEq] at hs
      obtain ⟨h1, h2, h3⟩ := cf_set ht
      rw [hs] at h1 h2
      refine ⟨⟨?_, ?_, ?_, ?_, ?_, ?_⟩, ?_, ?_, ?_, ?_, ?_⟩
      · intro j; rw [h1, ← v.core.a j, ← hs]
      · rw [← hs]; exact v.core.b
      · rw [← hs]; exact v.core.c
      · rw [← hs]; exact v.core.d
      · rw [← hs]
        show s.threadsIn = _
        rw [v.core.e]; exact h3.symm
      · rw [← hs]; exact v.core.l
      · rw [← hs]; exact v.f
      · rw [← hs]; exact v.g
      · rw [← hs]; exact v.h
      · intro hf ht'
        have := v.k (by rw [← hs] at hf; exact hf) (by rw [← hs] at ht'; exact ht')
        rcases this with h | ⟨j, h⟩
        · left; rw [← hs]; exact h
        · right; exact ⟨j, by rw [h1]; exact h⟩
      · intro hc
        rw [hc i] at h2
        cases h2
  | enter i =>
    simp only [step] at hs
    split at hs
    · rename_i hi
      simp only [Option.some.injEq] at hs
      subst hs
      unfold enter
      have hpc : ∀ k, pcOf { s with threadsIn := s.threadsIn + 1, isOpen := false } k = pcOf s k := fun _ => rfl
      have hi' : pcOf { s with threadsIn := s.threadsIn + 1, isOpen := false } i = some .out := hi
      refine ⟨⟨?_, by simpa using v.core.b, by simpa using v.core.c, by simpa using v.core.d, ?_, by simp⟩, by simpa using v.f, by simpa using v.g, by simpa using v.h, ?_, ?_⟩
      · intro j
        rw [goto_wq, pc_goto]
        show j ∈ s.wq ↔ _
        rw [v.core.a j]
        by_cases hj : j = i
        · rw [if_pos hj, hj, hi', hi]
          constructor
          · intro h; exact absurd (Option.some.inj h) (by decide)
          · intro h; exact absurd (Option.some.inj h) (by decide)
        · rw [if_neg hj, hpc]
      · have := cnt_goto { s with threadsIn := s.threadsIn + 1, isOpen := false } i .check .out hi'
        simp only [reduceCtorEq, if_false, if_true] at this
        rw [goto_threadsIn]
        show s.threadsIn + 1 = _
        have h0 := v.core.e
        omega
      · intro _ _; exact Or.inr ⟨i, Or.inl (pc_self _ hi')⟩
      · intro _ _ _; exact Or.inr ⟨i, _, pc_self _ hi', rfl⟩
    · cases hs
  | check i =>
    simp only [step] at hs
    split at hs
    · rename_i hi
      simp only [Option.some.injEq] at hs
      subst hs
      unfold check
      by_cases hf : (s.finish || cfOf s i) = true
      · rw [if_pos hf]
        refine ⟨v.core.goto _ hi (by decide) (by decide) (by decide) (by decide), by simpa using v.f, by simpa using v.g, by simpa using v.h, ?_, ?_⟩
        · intro _ _; exact Or.inr ⟨i, Or.inr (pc_self _ hi)⟩
        · intro _ _ _; exact Or.inr ⟨i, _, pc_self _ hi, rfl⟩
      · rw [if_neg hf]
        refine take_inv v hi (by decide) (by decide) ?_
        cases h : s.finish with
        | false => rfl
        | true => rw [h] at hf; simp at hf
    · cases hs
  | done i =>
    simp only [step] at hs
    split at hs
    · rename_i a hi
      simp only [Option.some.injEq] at hs
      subst hs
      exact goto_act v _ hi (by simp) (by simp) (by simp) (by simp) rfl
    · cases hs
  | throws i =>
    simp only [step] at hs
    split at hs
    · rename_i a hi
      simp only [Option.some.injEq] at hs
      subst hs
      have v' : Inv { s with running := s.running - 1 } :=
        ⟨⟨v.core.a, v.core.b, v.core.c, v.core.d, v.core.e, v.core.l⟩, v.f, v.g, v.h, v.k, v.m⟩
      exact goto_act v' _ hi (by simp) (by simp) (by simp) (by simp) rfl
    · cases hs
  | store i =>
    simp only [step] at hs
    split at hs
    · rename_i k hi
      simp only [Option.some.injEq] at hs
      subst hs
      have v' : Inv { s with running := k - 1 } :=
        ⟨⟨v.core.a, v.core.b, v.core.c, v.core.d, v.core.e, v.core.l⟩, v.f, v.g, v.h, v.k, v.m⟩
      exact goto_act v' _ hi (by simp) (by simp) (by simp) (by simp) rfl
    · cases hs
  | relock i =>
    simp only [step] at hs
    split at hs
    · rename_i hi
      simp only [Option.some.injEq] at hs
      subst hs
      unfold relock
      by_cases hf : (s.finish || cfOf s i) = true
      · rw [if_pos hf]
        refine ⟨v.core.goto _ hi (by decide) (by decide) (by decide) (by decide), by simpa using v.f, by simpa using v.g, by simpa using v.h, ?_, ?_⟩
        · intro hf ht
          simp only [goto_finish, goto_threadsIn, goto_sem] at hf ht ⊢
          rcases v.k hf ht with h | ⟨j, h⟩
          · exact Or.inl h
          · right
            have hj : j ≠ i := by
              rintro rfl
              rw [hi] at h
              rcases h with h | h <;> exact absurd (Option.some.inj h) (by decide)
            exact ⟨j, by rw [pc_goto, if_neg hj]; exact h⟩
        · intro hc hq
          rw [goto_queue] at hq
          have hcf : cfOf s i = false := by rw [← cf_goto s i .idle i]; exact hc i
          rw [hcf, Bool.or_false] at hf
          exact absurd (v.f hf) hq
      · rw [if_neg hf]
        refine take_inv v hi (by decide) (by decide) ?_
        cases h : s.finish with
        | false => rfl
        | true => rw [h] at hf; simp at hf
    · cases hs
  | wait i =>
    simp only [step] at hs
    split at hs
    · rename_i hi
      simp only [Option.some.injEq] at hs
      subst hs
      obtain ⟨a1, a2, a3⟩ := v.core.lock hi
      obtain ⟨s1, s2, s3, s4, s5, s6, s7, s8, s9, s10⟩ := lock_same s i
      refine ⟨a1, by rw [s1, s2]; exact v.f, by rw [s1, s5, s6]; exact v.g, by rw [s6, s7]; exact v.h, ?_, ?_⟩
      · intro hf ht
        rw [s2] at hf
        rw [s4] at ht
        by_cases hsem : 0 < s.sem
        · rw [if_pos hsem] at a3
          exact Or.inr ⟨i, Or.inl a3.1⟩
        · rw [if_neg hsem] at a3
          rcases v.k hf ht with h | ⟨j, h⟩
          · exact absurd h hsem
          · right
            have hj : j ≠ i := by
              rintro rfl
              rw [hi] at h
              rcases h with h | h <;> exact absurd (Option.some.inj h) (by decide)
            exact ⟨j, by rw [a2 j hj]; exact h⟩
      · intro hc hq ht
        rw [s1] at hq
        rw [s4] at ht
        by_cases hsem : 0 < s.sem
        · rw [if_pos hsem] at a3
          exact Or.inr ⟨i, _, a3.1, rfl⟩
        · rcases v.m (fun k => by rw [← s10 k]; exact hc k) hq ht with h | ⟨j, p, h, hp⟩
          · exact absurd h hsem
          · right
            have hj : j ≠ i := by
              rintro rfl
              rw [hi] at h
              rw [← Option.some.inj h] at hp
              cases hp
            exact ⟨j, p, by rw [a2 j hj]; exact h, hp⟩
    · cases hs
  | leave i mid =>
    simp only [step] at hs
    split at hs
    · rename_i hi
      simp only [Option.some.injEq] at hs
      subst hs
      have hc1 := core_leave v hi
      have f1 : (goto { s with threadsIn := s.threadsIn - 1 } i .out).finish = true → (goto { s with threadsIn := s.threadsIn - 1 } i .out).queue = [] := by
        simpa using v.f
      have g1 : (goto { s with threadsIn := s.threadsIn - 1 } i .out).acc = (goto { s with threadsIn := s.threadsIn - 1 } i .out).gone ++ (goto { s with threadsIn := s.threadsIn - 1 } i .out).queue := by
        simpa using v.g
      have k1 : (goto { s with threadsIn := s.threadsIn - 1 } i .out).started.Sublist (goto { s with threadsIn := s.threadsIn - 1 } i .out).gone := by
        simpa using v.h
      unfold leave
      simp only []
      split
      · rename_i hz
        refine ⟨⟨hc1.a, hc1.b, hc1.c, hc1.d, hc1.e, fun _ => hz⟩, f1, g1, k1, ?_, ?_⟩
        · intro _ ht
          have : 0 < (goto { s with threadsIn := s.threadsIn - 1 } i .out).threadsIn := ht
          omega
        · intro _ _ ht
          have : 0 < (goto { s with threadsIn := s.threadsIn - 1 } i .out).threadsIn := ht
          omega
      · exact wake_inv hc1 f1 g1 k1 mid
    · cases hs

theorem reach_inv {P : Op → Prop} {n : Nat} {f : Bool} {s : St} (h : Reach P n f s) : Inv s := by
  induction h with
  | start => exact start_inv n f
  | step _ _ hs ih => exact step_inv ih hs

/-! ### Actions -/

/-- What one step does to the lists: it starts what it takes, unless it is `finish`. -/
theorem step_lists {s s' : St} {o : Op} (hs : step s o = some s') :
    (∀ mid, o ≠ .finish mid) → ∃ l, s'.gone = s.gone ++ l ∧ s'.started = s.started ++ l := by
  have tk : ∀ i, ∃ l, (take s i).gone = s.gone ++ l ∧ (take s i).started = s.started ++ l := by
    intro i
    cases hq : s.queue with
    | nil => exact ⟨[], by simp [take, hq], by simp [take, hq]⟩
    | cons a r => exact ⟨[a], by simp [take, hq], by simp [take, hq]⟩
  have sm : ∀ {a b : St}, Same a b → ∃ l, b.gone = a.gone ++ l ∧ b.started = a.started ++ l := by
    rintro a b ⟨_, _, _, _, _, h1, h2, _⟩
    exact ⟨[], by simp [h1], by simp [h2]⟩
  intro hno
  cases o with
  | execute a mid =>
    simp only [step, Option.some.injEq] at hs
    subst hs
    unfold execute
    split
    · exact ⟨[], by simp, by simp⟩
    · have := sm (wake_same { s with queue := s.queue ++ [a], acc := s.acc ++ [a] } mid)
      exact this
  | finish mid => exact absurd rfl (hno mid)
  | reset =>
    simp only [step, Option.some.injEq] at hs
    subst hs
    exact ⟨[], by simp, by simp⟩
  | cancel i =>
    simp only [step] at hs
    split at hs
    · simp only [Option.some.injEq] at hs
      subst hs
      exact ⟨[], by simp, by simp⟩
    · cases hs
  | enter i =>
    simp only [step] at hs
    split at hs
    · simp only [Option.some.injEq] at hs
      subst hs
      exact ⟨[], by simp [enter], by simp [enter]⟩
    · cases hs
  | check i =>
    simp only [step] at hs
    split at hs
    · simp only [Option.some.injEq] at hs
      subst hs
      unfold check
      split
      · exact ⟨[], by simp, by simp⟩
      · exact tk i
    · cases hs
  | done i =>
    simp only [step] at hs
    split at hs
    · simp only [Option.some.injEq] at hs
      subst hs
      exact ⟨[], by simp [done], by simp [done]⟩
    · cases hs
  | throws i =>
    simp only [step] at hs
    split at hs
    · simp only [Option.some.injEq] at hs
      subst hs
      exact ⟨[], by simp [throws], by simp [throws]⟩
    · cases hs
  | store i =>
    simp only [step] at hs
    split at hs
    · simp only [Option.some.injEq] at hs
      subst hs
      exact ⟨[], by simp [store], by simp [store]⟩
    · cases hs
  | relock i =>
    simp only [step] at hs
    split at hs
    · simp only [Option.some.injEq] at hs
      subst hs
      unfold relock
      split
      · exact ⟨[], by simp, by simp⟩
      · exact tk i
    · cases hs
  | wait i =>
    simp only [step] at hs
    split at hs
    · simp only [Option.some.injEq] at hs
      subst hs
      exact sm (lock_same s i)
    · cases hs
  | leave i mid =>
    simp only [step] at hs
    split at hs
    · simp only [Option.some.injEq] at hs
      subst hs
      have h1 := goto_same { s with threadsIn := s.threadsIn - 1 } i .out
      unfold leave
      simp only []
      split
      · exact ⟨[], by simp, by simp⟩
      · have := sm (h1.trans (wake_same (goto { s with threadsIn := s.threadsIn - 1 } i .out) mid))
        exact this
    · cases hs

/-- C146: the actions are started in the order in which they were accepted, each at most once; those which
are not started are in the queue or were dropped by `finish`. -/
theorem C146_order {n : Nat} {f : Bool} {s : St} (h : Reach Any n f s) :
    (∃ gone, s.acc = gone ++ s.queue ∧ s.started.Sublist gone) := by
  have v := reach_inv h
  exact ⟨s.gone, v.g, v.h⟩

/-- C146: without `finish` exactly the accepted actions that are not in the queue any more are started. -/
theorem C146_started {n : Nat} {f : Bool} {s : St} (h : Reach (fun o => ∀ mid, o ≠ .finish mid) n f s) :
    s.acc = s.started ++ s.queue := by
  have e : s.started = s.gone := by
    induction h with
    | start => rfl
    | step _ hp hs ih =>
      obtain ⟨l, h1, h2⟩ := step_lists hs hp
      rw [h1, h2, ih]
  rw [e]
  exact (reach_inv h).g

/-- C146: a thread that looks at the queue takes the oldest action and does it; with an empty queue it goes
to the semaphore. -/
theorem C146_take (s : St) (i : Nat) (hf : s.finish = false) (hc : cfOf s i = false) (o : Op) (q : PC)
    (hi : pcOf s i = some q) (ho : (o = .check i ∧ q = .check) ∨ (o = .relock i ∧ q = .relock)) :
    ∃ s', step s o = some s' ∧
      match s.queue with
      | [] => pcOf s' i = some .idle ∧ s'.queue = []
      | a :: r => pcOf s' i = some (.work a) ∧ s'.queue = r ∧ s'.started = s.started ++ [a] := by
  have key : match s.queue with
      | [] => pcOf (take s i) i = some .idle ∧ (take s i).queue = []
      | a :: r => pcOf (take s i) i = some (.work a) ∧ (take s i).queue = r ∧ (take s i).started = s.started ++ [a] := by
    cases hq : s.queue with
    | nil =>
      have e : take s i = goto s i .idle := by simp only [take, hq]
      rw [e]
      exact ⟨pc_self _ hi, by simp [hq]⟩
    | cons a r =>
      have e : take s i = goto { s with queue := r, running := s.running + 1, gone := s.gone ++ [a], started := s.started ++ [a] } i (.work a) := by
        simp only [take, hq]
      rw [e]
      exact ⟨pc_self (q := q) _ hi, by simp, by simp⟩
  refine ⟨take s i, ?_, key⟩
  rcases ho with ⟨rfl, rfl⟩ | ⟨rfl, rfl⟩
  · simp [step, hi, check, hf, hc]
  · simp [step, hi, relock, hf, hc]

/-! ### Nothing is forgotten -/

theorem inside_some {s : St} (v : Inv s) (h : 0 < s.threadsIn) : ∃ i, Inside s i := by
  rw [v.core.e] at h
  obtain ⟨t, ht, hi⟩ := List.countP_pos_iff.1 h
  obtain ⟨i, hl, hi'⟩ := List.mem_iff_getElem.1 ht
  refine ⟨i, t.pc, ?_, by simpa [inside] using hi⟩
  simp [pcOf, hl, hi']

theorem inside_pos {s : St} (v : Inv s) {i : Nat} (h : Inside s i) : 0 < s.threadsIn := by
  obtain ⟨p, hp, hne⟩ := h
  obtain ⟨t, ht, hq⟩ := Option.map_eq_some_iff.1 hp
  rw [v.core.e]
  refine List.countP_pos_iff.2 ⟨t, List.mem_of_getElem? ht, ?_⟩
  simp only [inside, bne_iff_ne]
  rw [hq]; exact hne

/-- A permit that nobody takes: the threads inside do not wait. -/
theorem sem_awake {s : St} (v : Inv s) (h : 0 < s.sem) (ht : 0 < s.threadsIn) : ∃ i, Awake s i := by
  obtain ⟨i, p, hp, hne⟩ := inside_some v ht
  refine ⟨i, p, hp, hne, ?_⟩
  rintro rfl
  have := (v.core.a i).2 hp
  rw [v.core.c h] at this
  cases this

/-- C146: a thread which does not wait can go on. -/
theorem C146_goes_on (s : St) (i : Nat) (h : Awake s i) :
    ∃ o s', step s o = some s' ∧ ∀ a mid, o ≠ .execute a mid ∧ o ≠ .finish mid ∧ o ≠ .reset ∧ o ≠ .cancel i := by
  obtain ⟨p, hp, h1, h2⟩ := h
  cases p with
  | out => exact absurd rfl h1
  | waiting => exact absurd rfl h2
  | check => exact ⟨.check i, check s i, by simp [step, hp], by intro a mid; simp⟩
  | work a => exact ⟨.done i, done s i, by simp [step, hp], by intro a mid; simp⟩
  | store k => exact ⟨.store i, store s i k, by simp [step, hp], by intro a mid; simp⟩
  | relock => exact ⟨.relock i, relock s i, by simp [step, hp], by intro a mid; simp⟩
  | idle => exact ⟨.wait i, lockAsync s i, by simp [step, hp], by intro a mid; simp⟩
  | leave => exact ⟨.leave i none, leave s i none, by simp [step, hp], by intro a mid; simp⟩

/-- C146: after `finish`, when no thread can go on, all have left. -/
theorem C146_stop {n : Nat} {f : Bool} {s : St} (h : Reach Any n f s) (hf : s.finish = true)
    (hno : ∀ i, ¬ Awake s i) : ∀ i, ¬ Inside s i := by
  have v := reach_inv h
  intro i hi
  have ht := inside_pos v hi
  rcases v.k hf ht with hs | ⟨j, hj⟩
  · obtain ⟨j, hj⟩ := sem_awake v hs ht
    exact hno j hj
  · rcases hj with hj | hj
    · exact hno j ⟨_, hj, by decide, by decide⟩
    · exact hno j ⟨_, hj, by decide, by decide⟩

/-- C146: as long as no thread is told to finish, no action stays in the queue while all the threads
that serve are waiting. -/
theorem C146_served_partial {n : Nat} {f : Bool} {s : St} (h : Reach Any n f s) (hc : ∀ i, cfOf s i = false)
    (hq : s.queue ≠ []) (i : Nat) (hi : Inside s i) : ∃ j, Awake s j := by
  have v := reach_inv h
  have ht := inside_pos v hi
  rcases v.m hc hq ht with hs | ⟨j, p, hj, hp⟩
  · exact sem_awake v hs ht
  · refine ⟨j, p, hj, ?_, ?_⟩
    · rintro rfl; cases hp
    · rintro rfl; cases hp

/-- C146: the gate is open only when no thread serves. -/
theorem C146_gate {n : Nat} {f : Bool} {s : St} (h : Reach Any n f s) (ho : s.isOpen = true) :
    ∀ i, ¬ Inside s i := by
  intro i hi
  have v := reach_inv h
  have := inside_pos v hi
  have := v.core.l ho
  omega

/-- What a step does to the gate. -/
theorem step_gate {s s' : St} {o : Op} (hs : step s o = some s') :
    (s.isOpen = true ∨ 0 < s.threadsIn) ∨ (∃ i, o = .enter i) → s'.isOpen = true ∨ 0 < s'.threadsIn := by
  have sm : ∀ {a b : St}, Same a b → (a.isOpen = true ∨ 0 < a.threadsIn) → (b.isOpen = true ∨ 0 < b.threadsIn) := by
    rintro a b ⟨_, _, h1, h2, _⟩ h
    rw [h1, h2]; exact h
  have tk : ∀ i, (s.isOpen = true ∨ 0 < s.threadsIn) → ((take s i).isOpen = true ∨ 0 < (take s i).threadsIn) := by
    intro i h
    cases hq : s.queue with
    | nil => simpa [take, hq] using h
    | cons a r => simpa [take, hq] using h
  intro h
  cases o with
  | enter i =>
    simp only [step] at hs
    split at hs
    · simp only [Option.some.injEq] at hs
      subst hs
      right
      simp [enter]
    · cases hs
  | execute a mid =>
    have h : s.isOpen = true ∨ 0 < s.threadsIn := by simpa using h
    simp only [step, Option.some.injEq] at hs
    subst hs
    unfold execute
    split
    · exact h
    · exact sm (wake_same { s with queue := s.queue ++ [a], acc := s.acc ++ [a] } mid) h
  | finish mid =>
    have h : s.isOpen = true ∨ 0 < s.threadsIn := by simpa using h
    simp only [step, Option.some.injEq] at hs
    subst hs
    exact sm (wake_same { s with gone := s.gone ++ s.queue, queue := [], finish := true } mid) h
  | reset =>
    have h : s.isOpen = true ∨ 0 < s.threadsIn := by simpa using h
    simp only [step, Option.some.injEq] at hs
    subst hs
    exact h
  | cancel i =>
    have h : s.isOpen = true ∨ 0 < s.threadsIn := by simpa using h
    simp only [step] at hs
    split at hs
    · simp only [Option.some.injEq] at hs
      subst hs
      exact h
    · cases hs
  | check i =>
    have h : s.isOpen = true ∨ 0 < s.threadsIn := by simpa using h
    simp only [step] at hs
    split at hs
    · simp only [Option.some.injEq] at hs
      subst hs
      unfold check
      split
      · exact sm (goto_same _ _ _) h
      · exact tk i h
    · cases hs
  | done i =>
    have h : s.isOpen = true ∨ 0 < s.threadsIn := by simpa using h
    simp only [step] at hs
    split at hs
    · simp only [Option.some.injEq] at hs
      subst hs
      exact sm (goto_same _ _ _) h
    · cases hs
  | throws i =>
    have h : s.isOpen = true ∨ 0 < s.threadsIn := by simpa using h
    simp only [step] at hs
    split at hs
    · simp only [Option.some.injEq] at hs
      subst hs
      exact sm (goto_same { s with running := s.running - 1 } _ _) h
    · cases hs
  | store i =>
    have h : s.isOpen = true ∨ 0 < s.threadsIn := by simpa using h
    simp only [step] at hs
    split at hs
    · rename_i k _
      simp only [Option.some.injEq] at hs
      subst hs
      exact sm (goto_same { s with running := k - 1 } _ _) h
    · cases hs
  | relock i =>
    have h : s.isOpen = true ∨ 0 < s.threadsIn := by simpa using h
    simp only [step] at hs
    split at hs
    · simp only [Option.some.injEq] at hs
      subst hs
      unfold relock
      split
      · exact sm (goto_same _ _ _) h
      · exact tk i h
    · cases hs
  | wait i =>
    have h : s.isOpen = true ∨ 0 < s.threadsIn := by simpa using h
    simp only [step] at hs
    split at hs
    · simp only [Option.some.injEq] at hs
      subst hs
      exact sm (lock_same _ _) h
    · cases hs
  | leave i mid =>
    simp only [step] at hs
    split at hs
    · simp only [Option.some.injEq] at hs
      subst hs
      unfold leave
      simp only []
      split
      · left; rfl
      · rename_i hz
        exact sm (wake_same (goto { s with threadsIn := s.threadsIn - 1 } i .out) mid) (Or.inr (Nat.pos_of_ne_zero hz))
    · cases hs

theorem run_reach {n : Nat} {f : Bool} : ∀ (l : List Op) {s s' : St}, Reach Any n f s → run s l = some s' → Reach Any n f s'
  | [], s, s', h, hr => by
    simp only [run, Option.some.injEq] at hr
    subst hr; exact h
  | o :: l, s, s', h, hr => by
    simp only [run] at hr
    split at hr
    · rename_i s1 hs
      exact run_reach l (h.step trivial hs) hr
    · cases hr

/-- C146: once a thread has served, `stopAll` and `join` find the gate open as soon as no thread serves. -/
theorem C146_join_partial {n : Nat} {f : Bool} {s : St} (ops : List Op) (hr : run (start n f) ops = some s)
    (he : ∃ i, Op.enter i ∈ ops) (hno : ∀ i, ¬ Inside s i) : s.isOpen = true := by
  have key : ∀ (l : List Op) (a b : St), run a l = some b →
      ((a.isOpen = true ∨ 0 < a.threadsIn) ∨ ∃ i, Op.enter i ∈ l) → b.isOpen = true ∨ 0 < b.threadsIn := by
    intro l
    induction l with
    | nil =>
      intro a b h1 h2
      simp only [run, Option.some.injEq] at h1
      subst h1
      rcases h2 with h2 | ⟨i, h2⟩
      · exact h2
      · cases h2
    | cons o l ih =>
      intro a b h1 h2
      simp only [run] at h1
      split at h1
      · rename_i a' hs
        apply ih a' b h1
        rcases h2 with h2 | ⟨i, h2⟩
        · exact Or.inl (step_gate hs (Or.inl h2))
        · rcases List.mem_cons.1 h2 with h2 | h2
          · exact Or.inl (step_gate hs (Or.inr ⟨i, h2.symm⟩))
          · exact Or.inr ⟨i, h2⟩
      · cases h1
  have v := reach_inv (run_reach ops Reach.start hr)
  rcases key ops _ _ hr (Or.inr he) with h | h
  · exact h
  · obtain ⟨i, hi⟩ := inside_some v h
    exact absurd hi (hno i)

/-! ### The end -/

/-- How many steps a thread has at most before it is outside, once `finish` was called. -/
def rank : PC → Nat
  | .work _ => 7
  | .store _ => 6
  | .relock => 5
  | .idle => 4
  | .waiting => 3
  | .check => 2
  | .leave => 1
  | .out => 0

def total (s : St) : Nat := (s.th.map (fun t => rank t.pc)).sum

theorem sum_set : ∀ (l : List Th) (i : Nat) (t u : Th), l[i]? = some t →
    ((l.set i u).map (fun t => rank t.pc)).sum + rank t.pc = (l.map (fun t => rank t.pc)).sum + rank u.pc
  | [], i, t, u, h => by simp at h
  | x :: l, 0, t, u, h => by
    simp only [List.getElem?_cons_zero, Option.some.injEq] at h
    subst h
    simp only [List.set_cons_zero, List.map_cons, List.sum_cons]
    omega
  | x :: l, i + 1, t, u, h => by
    simp only [List.getElem?_cons_succ] at h
    have := sum_set l i t u h
    simp only [List.set_cons_succ, List.map_cons, List.sum_cons]
    omega

theorem total_goto (s : St) (i : Nat) (p q : PC) (h : pcOf s i = some q) :
    total (goto s i p) + rank q = total s + rank p := by
  obtain ⟨t, ht, hq⟩ := Option.map_eq_some_iff.1 h
  have := sum_set s.th i t { t with pc := p } ht
  rw [goto_some ht]
  rw [hq] at this
  exact this

theorem total_unlock {s : St} (hc : Core s) : total (unlock s) ≤ total s := by
  unfold unlock
  split
  · rename_i j q hq
    have hj : pcOf { s with wq := q } j = some .waiting := (hc.a j).1 (by rw [hq]; exact List.mem_cons_self)
    have := total_goto { s with wq := q } j .check .waiting hj
    have h0 : total { s with wq := q } = total s := rfl
    simp only [rank] at this
    omega
  · exact Nat.le_refl _

theorem total_lock (s : St) (i : Nat) (hi : pcOf s i = some .idle) : total (lockAsync s i) < total s := by
  unfold lockAsync
  split
  · have := total_goto { s with sem := s.sem - 1 } i .check .idle hi
    have h0 : total { s with sem := s.sem - 1 } = total s := rfl
    simp only [rank] at this
    omega
  · have := total_goto { s with wq := s.wq ++ [i] } i .waiting .idle hi
    have h0 : total { s with wq := s.wq ++ [i] } = total s := rfl
    simp only [rank] at this
    omega

theorem total_wake {s : St} (hc : Core s) (mid : Option Nat) : total (wake s mid) ≤ total s := by
  have h0 : total { s with sem := s.sem - 1 } = total s := rfl
  have hp := total_unlock hc.sem0
  cases mid with
  | none => exact hp
  | some j =>
    simp only [wake]
    split
    · rename_i hj
      have h1 := total_lock { s with sem := s.sem - 1 } j hj
      have h2 := total_unlock (hc.sem0.lock (i := j) hj).1
      omega
    · exact hp

/-- The steps of threads that serve. -/
def Inner : Op → Prop
  | .check _ => True
  | .done _ => True
  | .throws _ => True
  | .store _ => True
  | .relock _ => True
  | .wait _ => True
  | .leave _ _ => True
  | _ => False

theorem inner_down {s s' : St} {o : Op} (v : Inv s) (hf : s.finish = true) (ho : Inner o) (hs : step s o = some s') :
    total s' < total s ∧ s'.finish = true ∧ s'.started = s.started := by
  have g : ∀ (i : Nat) (p q : PC), pcOf s i = some q → rank p < rank q → total (goto s i p) < total s := by
    intro i p q h1 h2
    have := total_goto s i p q h1
    omega
  cases o with
  | execute a mid => cases ho
  | finish mid => cases ho
  | reset => cases ho
  | cancel i => cases ho
  | enter i => cases ho
  | check i =>
    simp only [step] at hs
    split at hs
    · rename_i hi
      simp only [Option.some.injEq] at hs
      subst hs
      simp only [check, hf, Bool.true_or, if_true]
      exact ⟨g i _ _ hi (by decide), by simpa using hf, by simp⟩
    · cases hs
  | done i =>
    simp only [step] at hs
    split at hs
    · rename_i a hi
      simp only [Option.some.injEq] at hs
      subst hs
      exact ⟨g i _ _ hi (by simp [rank]), by simpa [done] using hf, by simp [done]⟩
    · cases hs
  | throws i =>
    simp only [step] at hs
    split at hs
    · rename_i a hi
      simp only [Option.some.injEq] at hs
      subst hs
      refine ⟨?_, by simpa [throws] using hf, by simp [throws]⟩
      have := total_goto { s with running := s.running - 1 } i .leave _ hi
      have h0 : total { s with running := s.running - 1 } = total s := rfl
      simp only [rank] at this
      unfold throws
      omega
    · cases hs
  | store i =>
    simp only [step] at hs
    split at hs
    · rename_i k hi
      simp only [Option.some.injEq] at hs
      subst hs
      refine ⟨?_, by simpa [store] using hf, by simp [store]⟩
      have := total_goto { s with running := k - 1 } i .relock _ hi
      have h0 : total { s with running := k - 1 } = total s := rfl
      simp only [rank] at this
      unfold store
      omega
    · cases hs
  | relock i =>
    simp only [step] at hs
    split at hs
    · rename_i hi
      simp only [Option.some.injEq] at hs
      subst hs
      simp only [relock, hf, Bool.true_or, if_true]
      exact ⟨g i _ _ hi (by decide), by simpa using hf, by simp⟩
    · cases hs
  | wait i =>
    simp only [step] at hs
    split at hs
    · rename_i hi
      simp only [Option.some.injEq] at hs
      subst hs
      obtain ⟨_, s2, _, _, _, _, s7, _⟩ := lock_same s i
      exact ⟨total_lock s i hi, by rw [s2]; exact hf, s7⟩
    · cases hs
  | leave i mid =>
    simp only [step] at hs
    split at hs
    · rename_i hi
      simp only [Option.some.injEq] at hs
      have hs0 : step s (.leave i mid) = some s' := by simp only [step, hi, hs]
      subst hs
      have ht := total_goto { s with threadsIn := s.threadsIn - 1 } i .out _ hi
      have h0 : total { s with threadsIn := s.threadsIn - 1 } = total s := rfl
      simp only [rank] at ht
      unfold leave
      simp only []
      split
      · refine ⟨?_, by simpa using hf, by simp⟩
        show total (goto { s with threadsIn := s.threadsIn - 1 } i .out) < _
        omega
      · have hc1 := core_leave v hi
        have hw := total_wake hc1 mid
        obtain ⟨_, s2, _, _, _, _, s7, _⟩ := wake_same (goto { s with threadsIn := s.threadsIn - 1 } i .out) mid
        refine ⟨by omega, ?_, ?_⟩
        · rw [s2]; simpa using hf
        · rw [s7]; simp
    · cases hs

/-- C146: after `finish` nothing is started any more, and the threads make at most seven steps each
before they are outside: together with `C146_stop` they all leave when their actions end. -/
theorem C146_ends {n : Nat} {f : Bool} {s : St} (h : Reach Any n f s) (hf : s.finish = true) (ops : List Op)
    (hin : ∀ o ∈ ops, Inner o) (s' : St) (hr : run s ops = some s') :
    ops.length ≤ 7 * s.th.length ∧ s'.started = s.started ∧ s'.finish = true := by
  have key : ∀ (l : List Op) (a : St), Reach Any n f a → a.finish = true → (∀ o ∈ l, Inner o) → run a l = some s' →
      l.length + total s' ≤ total a ∧ s'.started = a.started ∧ s'.finish = true := by
    intro l
    induction l with
    | nil =>
      intro a _ hfa _ hr
      simp only [run, Option.some.injEq] at hr
      subst hr
      exact ⟨by simp, rfl, hfa⟩
    | cons o l ih =>
      intro a ha hfa hin hr
      simp only [run] at hr
      split at hr
      · rename_i a1 hs
        obtain ⟨d1, d2, d3⟩ := inner_down (reach_inv ha) hfa (hin o List.mem_cons_self) hs
        obtain ⟨i1, i2, i3⟩ := ih a1 (ha.step trivial hs) d2 (fun o ho => hin o (List.mem_cons_of_mem _ ho)) hr
        refine ⟨?_, by rw [i2, d3], i3⟩
        simp only [List.length_cons]
        omega
      · cases hr
  obtain ⟨k1, k2, k3⟩ := key ops s h hf hin hr
  refine ⟨?_, k2, k3⟩
  have : ∀ l : List Th, (l.map (fun t => rank t.pc)).sum ≤ 7 * l.length := by
    intro l
    induction l with
    | nil => simp
    | cons t l ih =>
      have : rank t.pc ≤ 7 := by cases t.pc <;> simp [rank]
      simp only [List.map_cons, List.sum_cons, List.length_cons]
      omega
  have := this s.th
  have h2 : total s = (s.th.map (fun t => rank t.pc)).sum := rfl
  omega

/-- C146: after `finish` the queue is empty, and what is given to the executor is refused until `reset`. -/
theorem C146_finish {n : Nat} {f : Bool} {s : St} (h : Reach Any n f s) (mid : Option Nat) :
    (∃ s', step s (.finish mid) = some s' ∧ s'.queue = [] ∧ s'.finish = true ∧ s'.acc = s.acc) ∧
    (s.finish = true → s.queue = [] ∧ ∀ a mid, step s (.execute a mid) = some s) ∧
    (s.finish = false → ∀ a mid, ∃ s', step s (.execute a mid) = some s' ∧ s'.queue = s.queue ++ [a] ∧ s'.acc = s.acc ++ [a]) := by
  have v := reach_inv h
  refine ⟨⟨_, rfl, ?_, ?_, ?_⟩, ?_, ?_⟩
  · exact (wake_same _ mid).1
  · exact (wake_same _ mid).2.1
  · exact (wake_same _ mid).2.2.2.2.1
  · intro hf
    exact ⟨v.f hf, by intro a mid; simp [step, execute, hf]⟩
  · intro hf a mid
    refine ⟨wake { s with queue := s.queue ++ [a], acc := s.acc ++ [a] } mid, by simp [step, execute, hf], ?_, ?_⟩
    · exact (wake_same _ mid).1
    · exact (wake_same _ mid).2.2.2.2.1

/-- Two threads, two actions, the second one throws, then `finish`: all leave. -/
example : ∃ s, run (start 2 false) [.enter 0, .enter 1, .check 0, .check 1, .wait 0, .wait 1, .check 0, .wait 0,
      .execute 5 none, .execute 6 none, .check 1, .check 0, .done 1, .throws 0, .leave 0 none, .store 1, .relock 1, .finish none,
      .wait 1, .check 1, .leave 1 none] = some s ∧
    s.started = [5, 6] ∧ s.isOpen = true ∧ s.threadsIn = 0 := ⟨_, rfl, by decide⟩

/-! ### The count of running actions -/

/-- The count for the place of the only thread. -/
def Cnt (s : St) : Prop :=
  (∀ i, 0 < i → pcOf s i = none) ∧
  match pcOf s 0 with
  | some (.work _) => s.running = 1
  | some (.store k) => s.running = 1 ∧ k = 1
  | _ => s.running = 0

theorem only0 {s : St} (h : Cnt s) {i : Nat} {p : PC} (hi : pcOf s i = some p) : i = 0 := by
  cases i with
  | zero => rfl
  | succ i => rw [h.1 (i + 1) (Nat.succ_pos i)] at hi; cases hi

theorem cnt_wake {s : St} (hc : Core s) (h : Cnt s) (mid : Option Nat) : Cnt (wake s mid) := by
  obtain ⟨_, b, _⟩ := hc.wake mid
  obtain ⟨_, _, _, _, _, _, _, s8, _⟩ := wake_same s mid
  obtain ⟨h1, h2⟩ := h
  refine ⟨?_, ?_⟩
  · intro i hi
    rcases b i with b | ⟨b, _⟩ | ⟨b, _⟩
    · rw [b]; exact h1 i hi
    · rw [h1 i hi] at b; rcases b with b | b <;> cases b
    · rw [h1 i hi] at b; cases b
  · rw [s8]
    rcases b 0 with b | ⟨b, c⟩ | ⟨b, c⟩
    · rw [b]; exact h2
    · rw [c]
      rcases b with b | b <;> (rw [b] at h2; exact h2)
    · rw [c]; rw [b] at h2; exact h2

theorem cnt_goto0 {s s1 : St} (h : Cnt s) (p : PC) {q : PC} (hq : pcOf s 0 = some q) (h1 : s1.th = s.th)
    (hr : match p with
      | .work _ => s1.running = 1
      | .store k => s1.running = 1 ∧ k = 1
      | _ => s1.running = 0) : Cnt (goto s1 0 p) := by
  have hpc : ∀ k, pcOf s1 k = pcOf s k := by intro k; simp only [pcOf, h1]
  refine ⟨?_, ?_⟩
  · intro i hi
    rw [pc_goto, if_neg (by omega), hpc]; exact h.1 i hi
  · rw [pc_self p (by rw [hpc]; exact hq), goto_running]
    cases p <;> exact hr

/-- C146: with one thread `isRunning` is true exactly while it works at an action. -/
theorem C146_running_partial {f : Bool} {s : St} (h : Reach Any 1 f s) :
    isRunning s = true ↔ ∃ p, pcOf s 0 = some p ∧ ((∃ a, p = .work a) ∨ ∃ k, p = .store k) := by
  have hc : Cnt s := by
    induction h with
    | start =>
      refine ⟨?_, rfl⟩
      intro i hi
      cases i with
      | zero => omega
      | succ i => rfl
    | @step s s' o hr _ hs ih =>
      have v := reach_inv hr
      have tk : ∀ q, pcOf s 0 = some q → s.running = 0 → Cnt (take s 0) := by
        intro q hq h0
        cases hqu : s.queue with
        | nil =>
          have e : take s 0 = goto s 0 .idle := by simp only [take, hqu]
          rw [e]
          exact cnt_goto0 ih _ hq rfl h0
        | cons a r =>
          have e : take s 0 = goto { s with queue := r, running := s.running + 1, gone := s.gone ++ [a], started := s.started ++ [a] } 0 (.work a) := by
            simp only [take, hqu]
          rw [e]
          exact cnt_goto0 ih _ hq rfl (by show s.running + 1 = 1; omega)
      cases o with
      | execute a mid =>
        simp only [step, Option.some.injEq] at hs
        subst hs
        unfold execute
        split
        · exact ih
        · exact cnt_wake (s := { s with queue := s.queue ++ [a], acc := s.acc ++ [a] }) ⟨v.core.a, v.core.b, v.core.c, v.core.d, v.core.e, v.core.l⟩ ih mid
      | finish mid =>
        simp only [step, Option.some.injEq] at hs
        subst hs
        exact cnt_wake (s := { s with gone := s.gone ++ s.queue, queue := [], finish := true }) ⟨v.core.a, v.core.b, v.core.c, v.core.d, v.core.e, v.core.l⟩ ih mid
      | reset =>
        simp only [step, Option.some.injEq] at hs
        subst hs
        exact ih
      | cancel i =>
        simp only [step] at hs
        cases ht : s.th[i]? with
        | none => rw [ht] at hs; cases hs
        | some t =>
          rw [ht] at hs
          simp only [Option.some.injEq] at hs
          obtain ⟨h1, _, _⟩ := cf_set ht
          rw [hs] at h1
          refine ⟨?_, ?_⟩
          · intro i hi; rw [h1]; exact ih.1 i hi
          · rw [h1, ← hs]; exact ih.2
      | enter i =>
        simp only [step] at hs
        split at hs
        · rename_i hi
          simp only [Option.some.injEq] at hs
          subst hs
          have := only0 ih hi
          subst this
          have h0 := ih.2
          rw [hi] at h0
          exact cnt_goto0 ih _ hi rfl h0
        · cases hs
      | check i =>
        simp only [step] at hs
        split at hs
        · rename_i hi
          simp only [Option.some.injEq] at hs
          subst hs
          have := only0 ih hi
          subst this
          have h0 := ih.2
          rw [hi] at h0
          unfold check
          split
          · exact cnt_goto0 ih _ hi rfl h0
          · exact tk _ hi h0
        · cases hs
      | done i =>
        simp only [step] at hs
        split at hs
        · rename_i a hi
          simp only [Option.some.injEq] at hs
          subst hs
          have := only0 ih hi
          subst this
          have h0 := ih.2
          rw [hi] at h0
          exact cnt_goto0 ih _ hi rfl ⟨h0, h0⟩
        · cases hs
      | throws i =>
        simp only [step] at hs
        split at hs
        · rename_i a hi
          simp only [Option.some.injEq] at hs
          subst hs
          have := only0 ih hi
          subst this
          have h0 := ih.2
          rw [hi] at h0
          have h0 : s.running = 1 := h0
          exact cnt_goto0 ih _ hi rfl (by show s.running - 1 = 0; omega)
        · cases hs
      | store i =>
        simp only [step] at hs
        split at hs
        · rename_i k hi
          simp only [Option.some.injEq] at hs
          subst hs
          have := only0 ih hi
          subst this
          have h0 := ih.2
          rw [hi] at h0
          have h0 : s.running = 1 ∧ k = 1 := h0
          exact cnt_goto0 ih _ hi rfl (by show k - 1 = 0; omega)
        · cases hs
      | relock i =>
        simp only [step] at hs
        split at hs
        · rename_i hi
          simp only [Option.some.injEq] at hs
          subst hs
          have := only0 ih hi
          subst this
          have h0 := ih.2
          rw [hi] at h0
          unfold relock
          split
          · exact cnt_goto0 ih _ hi rfl h0
          · exact tk _ hi h0
        · cases hs
      | wait i =>
        simp only [step] at hs
        split at hs
        · rename_i hi
          simp only [Option.some.injEq] at hs
          subst hs
          have := only0 ih hi
          subst this
          have h0 := ih.2
          rw [hi] at h0
          unfold lockAsync
          split
          · exact cnt_goto0 ih _ hi rfl h0
          · exact cnt_goto0 ih _ hi rfl h0
        · cases hs
      | leave i mid =>
        simp only [step] at hs
        split at hs
        · rename_i hi
          simp only [Option.some.injEq] at hs
          subst hs
          have := only0 ih hi
          subst this
          have h0 := ih.2
          rw [hi] at h0
          have h1 : Cnt (goto { s with threadsIn := s.threadsIn - 1 } 0 .out) := cnt_goto0 ih _ hi rfl h0
          unfold leave
          simp only []
          split
          · exact h1
          · exact cnt_wake (core_leave v hi) h1 mid
        · cases hs
  obtain ⟨_, h2⟩ := hc
  cases hp : pcOf s 0 with
  | none =>
    rw [hp] at h2
    have h2 : s.running = 0 := h2
    simp [isRunning, h2]
  | some p =>
    rw [hp] at h2
    cases p with
    | work a =>
      have h2 : s.running = 1 := h2
      simp [isRunning, h2]
    | store k =>
      have h2 : s.running = 1 ∧ k = 1 := h2
      simp [isRunning, h2.1]
    | out => have h2 : s.running = 0 := h2; simp [isRunning, h2]
    | check => have h2 : s.running = 0 := h2; simp [isRunning, h2]
    | relock => have h2 : s.running = 0 := h2; simp [isRunning, h2]
    | idle => have h2 : s.running = 0 := h2; simp [isRunning, h2]
    | waiting => have h2 : s.running = 0 := h2; simp [isRunning, h2]
    | leave => have h2 : s.running = 0 := h2; simp [isRunning, h2]

example : ∃ s, run (start 1 false) [.execute 5 none, .enter 0, .check 0] = some s ∧ isRunning s = true ∧
    pcOf s 0 = some (.work 5) := ⟨_, rfl, by decide⟩

/-! ### What is wrong -/

/-- C146 is violated: the constructor leaves `finishFlag` as it is found in memory: then actions are refused
and threads leave at once. -/
theorem C146_uninit_violated : (∀ a mid, step (start 1 true) (.execute a mid) = some (start 1 true)) ∧
    ∃ s, run (start 1 true) [.execute 5 none, .enter 0, .check 0, .leave 0 none] = some s ∧ s.acc = [] ∧
      pcOf s 0 = some .out := by
  refine ⟨?_, _, rfl, by decide⟩
  intro a mid
  rfl

/-- C146 is violated: as long as no thread has served, the gate is closed though no thread serves: the destructor
of an executor that was not used waits for ever. -/
theorem C146_unused_violated {n : Nat} {f : Bool} {s : St} (h : Reach (fun o => ∀ i, o ≠ .enter i) n f s) :
    s.isOpen = false ∧ ∀ i, ¬ Inside s i := by
  have key : s.isOpen = false ∧ ∀ i p, pcOf s i = some p → p = .out := by
    induction h with
    | start => exact ⟨rfl, start_pc n f⟩
    | @step s s' o hr hp hs ih =>
      have v := reach_inv hr
      obtain ⟨h1, h2⟩ := ih
      have wk : ∀ (a : St) (mid : Option Nat), Core a → a.isOpen = false → (∀ i p, pcOf a i = some p → p = .out) →
          (wake a mid).isOpen = false ∧ ∀ i p, pcOf (wake a mid) i = some p → p = .out := by
        intro a mid hc ho hall
        refine ⟨by rw [(wake_same a mid).2.2.1]; exact ho, ?_⟩
        intro i p hi
        rcases (hc.wake mid).2.1 i with b | ⟨b, _⟩ | ⟨b, _⟩
        · rw [b] at hi; exact hall i p hi
        · rcases b with b | b <;> exact absurd (hall i _ b) (by decide)
        · exact absurd (hall i _ b) (by decide)
      cases o with
      | execute a mid =>
        simp only [step, Option.some.injEq] at hs
        subst hs
        unfold execute
        split
        · exact ⟨h1, h2⟩
        · exact wk _ mid ⟨v.core.a, v.core.b, v.core.c, v.core.d, v.core.e, v.core.l⟩ h1 h2
      | finish mid =>
        simp only [step, Option.some.injEq] at hs
        subst hs
        exact wk _ mid ⟨v.core.a, v.core.b, v.core.c, v.core.d, v.core.e, v.core.l⟩ h1 h2
      | reset =>
        simp only [step, Option.some.injEq] at hs
        subst hs
        exact ⟨h1, h2⟩
      | cancel i =>
        simp only [step] at hs
        cases ht : s.th[i]? with
        | none => rw [ht] at hs; cases hs
        | some t =>
          rw [ht] at hs
          simp only [Option.some.injEq] at hs
          obtain ⟨g1, _, _⟩ := cf_set ht
          rw [hs] at g1
          refine ⟨by rw [← hs]; exact h1, ?_⟩
          intro i p hi
          rw [g1] at hi
          exact h2 i p hi
      | enter i => exact absurd rfl (hp i)
      | check i =>
        simp only [step] at hs
        split at hs
        · rename_i hi; exact absurd (h2 i _ hi) (by decide)
        · cases hs
      | done i =>
        simp only [step] at hs
        split at hs
        · rename_i hi; exact absurd (h2 i _ hi) (by simp)
        · cases hs
      | throws i =>
        simp only [step] at hs
        split at hs
        · rename_i hi; exact absurd (h2 i _ hi) (by simp)
        · cases hs
      | store i =>
        simp only [step] at hs
        split at hs
        · rename_i hi; exact absurd (h2 i _ hi) (by simp)
        · cases hs
      | relock i =>
        simp only [step] at hs
        split at hs
        · rename_i hi; exact absurd (h2 i _ hi) (by decide)
        · cases hs
      | wait i =>
        simp only [step] at hs
        split at hs
        · rename_i hi; exact absurd (h2 i _ hi) (by decide)
        · cases hs
      | leave i mid =>
        simp only [step] at hs
        split at hs
        · rename_i hi; exact absurd (h2 i _ hi) (by decide)
        · cases hs
  refine ⟨key.1, ?_⟩
  rintro i ⟨p, hp, hne⟩
  exact hne (key.2 i p hp)

/-- C146 is violated: two actions are given while two threads are on the way to the semaphore: one thread works,
the other one waits, and the second action stays in the queue. -/
theorem C146_parallel_violated : ∃ s, run (start 2 false) [.enter 0, .enter 1, .check 0, .check 1,
      .execute 5 none, .execute 6 none, .wait 0, .wait 1, .check 0] = some s ∧
    s.queue = [6] ∧ pcOf s 0 = some (.work 5) ∧ pcOf s 1 = some .waiting := ⟨_, rfl, by decide⟩

/-- C146 is violated: a thread that is told to finish while it works leaves only the inner loop: it waits in the
semaphore, does not leave `serve`, and the next action is not done. -/
theorem C146_cancel_violated : ∃ s, run (start 1 false) [.enter 0, .check 0, .execute 5 none, .execute 6 none,
      .wait 0, .check 0, .cancel 0, .done 0, .store 0, .relock 0, .wait 0] = some s ∧
    s.queue = [6] ∧ cfOf s 0 = true ∧ pcOf s 0 = some .waiting := ⟨_, rfl, by decide⟩

/-- C146 is violated: two actions end at the same time: one subtraction is lost, and `isRunning` stays true
though nothing is running. -/
theorem C146_running_violated : ∃ s, run (start 2 false) [.execute 5 none, .execute 6 none, .enter 0, .enter 1, .check 0, .check 1,
      .done 0, .done 1, .store 0, .store 1, .relock 0, .relock 1] = some s ∧
    isRunning s = true ∧ pcOf s 0 = some .idle ∧ pcOf s 1 = some .idle := ⟨_, rfl, by decide⟩

end LS.QueueExec

import Verif.MicroLock
import Verif.FastLockProps
/-! # Property C31: MicroLock -/

namespace LS.MicroLock
open LS.FastLock (upd upd_same upd_ne Chain)

/-! ## Specification -/

/-- The thread is in the queue and waits for the lock. -/
def Waiting (s : St) (t : Nat) : Prop := ∃ a, s.pc t = .w a ∨ s.pc t = .h a

/-- The thread is inside of the guarded section. -/
def Holds (s : St) (t : Nat) : Prop := ∃ a, s.pc t = .hold a

/-- A finite run without outside help. -/
inductive Run (thr : Nat → Nat) : St → St → Prop
  | refl {s} : Run thr s s
  | step {s s' s'' t a} : step thr s t a = some s' → Run thr s' s'' → Run thr s s''

/-! ## Invariant -/

/-- Threads which neither own, take, release nor wait. -/
def passive : PC → Bool
  | .idle | .m0 _ | .m1 _ _ | .u4 _ => true
  | _ => false

/-- The object a thread waits with. -/
def waits : PC → Option Nat
  | .w a | .h a => some a
  | _ => none

/-- The object a thread has prepared. -/
def prep : PC → Option Nat
  | .m0 a | .m1 a _ => some a
  | _ => none

/-- The thread has passed the moment of acquisition. -/
def entered : PC → Bool
  | .w _ | .h _ => false
  | _ => true

/-- What the program counter of the active thread says. -/
def Act (thr : Nat → Nat) (s : St) (T e : Nat) (W : List Nat) : Prop :=
  match s.pc T with
  | .w a | .hold a | .u a | .u0 a => a = e
  | .h a => a = e ∧ (s.token T = true ∨ ∃ u, s.pc u = .u4 T)
  | .u1 a k => a = e ∧ k ∈ W
  | .u2 k => W.getLast? = some k
  | .u3 k n => W.getLast? = some k ∧ n = thr k
  | _ => False

/-- Prepared objects lie on the stacks of their threads. -/
def Slots (thr : Nat → Nat) (s : St) : Prop :=
  ∀ t a, prep (s.pc t) = some a → thr a = t ∧ a ≠ 0

/-- Nobody has the lock. -/
structure Free (s : St) : Prop where
  top : s.top = 0
  others : ∀ t, passive (s.pc t) = true
  fifo : s.arrivals = s.acquired

/-- Thread `T` has the lock with the object `e`, the waiting objects are `W`, the newest first. -/
structure Locked (thr : Nat → Nat) (s : St) (T e : Nat) (W : List Nat) : Prop where
  mark : thr e = T
  mark0 : e ≠ 0
  mnext : s.next e = 0
  chain : Chain s.next s.top W e
  wait : ∀ a ∈ W, waits (s.pc (thr a)) = some a ∧ thr a ≠ T ∧ a ≠ 0
  nodup : W.Nodup
  others : ∀ t, t ≠ T → passive (s.pc t) = true ∨ ∃ a ∈ W, thr a = t
  act : Act thr s T e W
  fifo : s.arrivals = s.acquired ++ (if entered (s.pc T) then [] else [T]) ++ W.reverse.map thr

/-- The invariant. -/
def Inv (thr : Nat → Nat) (s : St) : Prop :=
  Slots thr s ∧ (Free s ∨ ∃ T e W, Locked thr s T e W)

theorem Locked.top_ne {thr s T e W} (h : Locked thr s T e W) : s.top ≠ 0 := by
  cases W with
  | nil => rw [show s.top = e from h.chain]; exact h.mark0
  | cons a W => rw [h.chain.1]; exact (h.wait a (by simp)).2.2

theorem Locked.next_ne {thr s T e W a} (h : Locked thr s T e W) (m : a ∈ W) : s.next a ≠ 0 := by
  rcases h.chain.walk m with hh | hh
  · rw [hh.2]; exact h.mark0
  · exact (h.wait _ hh).2.2

theorem Locked.mark_notin {thr s T e W} (h : Locked thr s T e W) : e ∉ W := fun m =>
  (h.wait e m).2.1 h.mark

theorem Locked.T_not_passive {thr s T e W} (h : Locked thr s T e W) : passive (s.pc T) = false := by
  have := h.act
  unfold Act at this
  split at this <;> simp_all [passive]

theorem Locked.eq_T {thr s T e W t} (h : Locked thr s T e W) (h1 : passive (s.pc t) = false)
    (h2 : waits (s.pc t) = none) : t = T := by
  apply Classical.byContradiction
  intro hT
  rcases h.others t hT with hh | ⟨a, m, rfl⟩
  · rw [h1] at hh; cases hh
  · rw [(h.wait a m).1] at h2; cases h2

theorem Locked.own_slot {thr s T e W t a} (h : Locked thr s T e W) (h1 : passive (s.pc t) = true)
    (ht : thr a = t) : a ∉ W ∧ a ≠ e := by
  constructor
  · intro m
    have := (h.wait a m).1
    rw [ht] at this
    revert this h1
    cases s.pc t <;> simp [passive, waits]
  · intro hh
    have := h.T_not_passive
    rw [← h.mark, ← hh, ht, h1] at this
    cases this

/-- A step of the active thread which stays active. -/
theorem Locked.act_step {thr s s' T e W} (h : Locked thr s T e W) (hq : s'.top = s.top)
    (hn : s'.next = s.next) (hp : ∀ t, t ≠ T → s'.pc t = s.pc t) (ha : Act thr s' T e W)
    (hf : s'.arrivals = s'.acquired ++ (if entered (s'.pc T) then [] else [T])
      ++ W.reverse.map thr) : Locked thr s' T e W where
  mark := h.mark
  mark0 := h.mark0
  mnext := by rw [hn]; exact h.mnext
  chain := by rw [hq, hn]; exact h.chain
  wait a m := by rw [hp _ (h.wait a m).2.1]; exact h.wait a m
  nodup := h.nodup
  others t m := by rw [hp _ m]; exact h.others t m
  act := ha
  fifo := hf

theorem Act.congr {thr s s' T e W} (h : Act thr s T e W) (hp : s'.pc T = s.pc T)
    (hw : (s.token T = true ∨ ∃ u, s.pc u = .u4 T) → (s'.token T = true ∨ ∃ u, s'.pc u = .u4 T)) :
    Act thr s' T e W := by
  unfold Act at h ⊢
  rw [hp]
  split at h <;> try exact h
  exact ⟨h.1, hw h.2⟩

/-- A step of another thread, which is passive before and after. -/
theorem Locked.frame {thr s s' T e W t} (h : Locked thr s T e W) (hq : s'.top = s.top)
    (ha : s'.arrivals = s.arrivals) (hac : s'.acquired = s.acquired)
    (hn : ∀ a, a ∈ W ∨ a = e → s'.next a = s.next a)
    (hp : ∀ u, u ≠ t → s'.pc u = s.pc u) (h1 : passive (s.pc t) = true)
    (h2 : passive (s'.pc t) = true)
    (htok : (s.token T = true ∨ ∃ u, s.pc u = .u4 T) → (s'.token T = true ∨ ∃ u, s'.pc u = .u4 T)) :
    Locked thr s' T e W := by
  have hT : T ≠ t := fun hh => by
    have := h.T_not_passive
    rw [hh, h1] at this; cases this
  have hw : ∀ a ∈ W, thr a ≠ t := fun a m hh => (h.own_slot h1 hh).1 m
  exact {
    mark := h.mark
    mark0 := h.mark0
    mnext := by rw [hn e (Or.inr rfl)]; exact h.mnext
    chain := by rw [hq]; exact h.chain.congr (fun a m => hn a (Or.inl m))
    wait := fun a m => by rw [hp _ (hw a m)]; exact h.wait a m
    nodup := h.nodup
    others := fun u m => by
      by_cases hu : u = t
      · subst hu; exact Or.inl h2
      · rw [hp _ hu]; exact h.others u m
    act := h.act.congr (hp _ hT) htok
    fifo := by rw [ha, hac, hp _ hT]; exact h.fifo }

/-- A wait loop iteration of a thread in the queue. -/
theorem Locked.wait_step {thr s s' T e W t a} (h : Locked thr s T e W) (hq : s'.top = s.top)
    (ha : s'.arrivals = s.arrivals) (hac : s'.acquired = s.acquired)
    (hn : s'.next = s.next) (hp : ∀ u, u ≠ t → s'.pc u = s.pc u) (hT : t ≠ T)
    (h1 : waits (s.pc t) = some a) (h2 : waits (s'.pc t) = some a)
    (htok : s'.token T = s.token T) : Locked thr s' T e W where
  mark := h.mark
  mark0 := h.mark0
  mnext := by rw [hn]; exact h.mnext
  chain := by rw [hq, hn]; exact h.chain
  wait b m := by
    obtain ⟨x, y, z⟩ := h.wait b m
    refine ⟨?_, y, z⟩
    by_cases hb : thr b = t
    · rw [hb] at x ⊢; rw [h2, ← h1, x]
    · rw [hp _ hb]; exact x
  nodup := h.nodup
  others u m := by
    by_cases hu : u = t
    · subst hu
      rcases h.others u m with hh | hh
      · revert hh h1; cases s.pc u <;> simp [passive, waits]
      · exact Or.inr hh
    · rw [hp _ hu]; exact h.others u m
  act := by
    refine h.act.congr (hp _ (Ne.symm hT)) ?_
    rw [htok]
    refine Or.imp id fun ⟨u, hu⟩ => ⟨u, ?_⟩
    by_cases hut : u = t
    · subst hut; rw [hu] at h1; cases h1
    · rw [hp _ hut]; exact hu
  fifo := by rw [ha, hac, hp _ (Ne.symm hT)]; exact h.fifo

/-- A passive thread joins the queue. -/
theorem Locked.push {thr s s' T e W t a} (h : Locked thr s T e W) (h1 : passive (s.pc t) = true)
    (ht : thr a = t) (h0 : a ≠ 0) (hna : s.next a = s.top) (hq : s'.top = a)
    (ha : s'.arrivals = s.arrivals ++ [t])
    (hac : s'.acquired = s.acquired) (hn : s'.next = s.next)
    (hp : s'.pc = upd s.pc t (.w a)) (hnu : ∀ n, s.pc t ≠ .u4 n)
    (htok : s'.token = s.token) : Locked thr s' T e (a :: W) := by
  have hT : T ≠ t := fun hh => by
    have := h.T_not_passive
    rw [hh, h1] at this; cases this
  have hpT : s'.pc T = s.pc T := by rw [hp, upd_ne _ _ hT]
  exact {
    mark := h.mark
    mark0 := h.mark0
    mnext := by rw [hn]; exact h.mnext
    chain := ⟨hq, by rw [hn, hna]; exact h.chain⟩
    wait := fun b m => by
      rw [hp]
      rcases List.mem_cons.1 m with rfl | m
      · rw [ht, upd_same]; exact ⟨rfl, Ne.symm hT, h0⟩
      · have : thr b ≠ t := fun hh => (h.own_slot h1 hh).1 m
        rw [upd_ne _ _ this]; exact h.wait b m
    nodup := List.nodup_cons.2 ⟨(h.own_slot h1 ht).1, h.nodup⟩
    others := fun u m => by
      by_cases hu : u = t
      · exact Or.inr ⟨a, by simp, by rw [ht, hu]⟩
      · rw [hp, upd_ne _ _ hu]
        exact (h.others u m).imp id fun ⟨b, hb, hh⟩ => ⟨b, by simp [hb], hh⟩
    act := by
      have := h.act
      unfold Act at this ⊢
      rw [hpT, htok]
      split at this <;> try exact this
      · refine ⟨this.1, this.2.imp id fun ⟨u, hu⟩ => ⟨u, ?_⟩⟩
        rw [hp, upd_ne _ _ (fun hh => by subst hh; exact hnu _ hu)]; exact hu
      · exact ⟨this.1, by simp [this.2]⟩
      · show (a :: W).getLast? = _
        rw [List.getLast?_cons, this]; rfl
      · refine ⟨?_, this.2⟩
        rw [List.getLast?_cons, this.1]; rfl
    fifo := by
      rw [ha, hac, hpT, h.fifo]
      simp [ht, List.append_assoc] }

/-- The owner passes the lock to the oldest waiter. -/
theorem Locked.handoff {thr s s' T e W p n} (h : Locked thr s T e W) (hpc : s.pc T = .u3 p n)
    (hq : s'.top = s.top) (hn : s'.next = upd s.next p 0) (ha : s'.arrivals = s.arrivals)
    (hac : s'.acquired = s.acquired) (hp : s'.pc = upd s.pc T (.u4 n)) :
    Locked thr s' (thr p) p W.dropLast := by
  have hact := h.act
  unfold Act at hact
  rw [hpc] at hact
  obtain ⟨hl, rfl⟩ := hact
  obtain ⟨V, hW⟩ := List.getLast?_eq_some_iff.1 hl
  subst hW
  rw [List.dropLast_concat]
  have hpw := h.wait p (by simp)
  have hnd : p ∉ V := by
    have := h.nodup
    rw [List.nodup_append] at this
    intro hh
    exact this.2.2 p hh p (by simp) rfl
  exact {
    mark := rfl
    mark0 := hpw.2.2
    mnext := by rw [hn, upd_same]
    chain := by
      rw [hq, hn]
      exact h.chain.dropLast.congr fun a m => upd_ne _ _ (fun hh => hnd (hh ▸ m))
    wait := fun b m => by
      have hb := h.wait b (by simp [m])
      rw [hp, upd_ne _ _ hb.2.1]
      refine ⟨hb.1, fun hh => hnd ?_, hb.2.2⟩
      have h1 := hb.1
      rw [hh, hpw.1] at h1
      injection h1 with h1
      rw [h1]; exact m
    nodup := (List.nodup_append.1 h.nodup).1
    others := fun t ht => by
      by_cases hu : t = T
      · subst hu; left; rw [hp, upd_same]; rfl
      · rw [hp, upd_ne _ _ hu]
        rcases h.others t hu with hh | ⟨b, hb, hh⟩
        · exact Or.inl hh
        · rcases List.mem_append.1 hb with hb | hb
          · exact Or.inr ⟨b, hb, hh⟩
          · simp at hb; subst hb; exact absurd hh.symm ht
    act := by
      have h1 := hpw.1
      unfold Act
      rw [hp, upd_ne _ _ hpw.2.1]
      cases hx : s.pc (thr p) <;> rw [hx] at h1 <;> simp [waits] at h1
      · exact h1
      · exact ⟨h1, Or.inr ⟨T, by rw [upd_same]⟩⟩
    fifo := by
      have hf := h.fifo
      rw [hpc] at hf
      have h1 := hpw.1
      have he : entered (s.pc (thr p)) = false := by
        revert h1
        cases s.pc (thr p) <;> simp [waits, entered]
      rw [ha, hac, hp, upd_ne _ _ hpw.2.1, hf, he]
      simp [entered] }

/-- The owner frees the lock. -/
theorem Locked.release {thr s s' T e W a} (h : Locked thr s T e W) (hpc : s.pc T = .u0 a)
    (hqa : s.top = a) (hq : s'.top = 0) (ha : s'.arrivals = s.arrivals)
    (hac : s'.acquired = s.acquired) (hp : s'.pc = upd s.pc T .idle) : Free s' := by
  have hact := h.act
  unfold Act at hact
  rw [hpc] at hact
  have hae : a = e := hact
  have hW : W = [] := by
    cases W with
    | nil => rfl
    | cons b W =>
      exact absurd (List.mem_cons_self) (by rw [← h.chain.1, hqa, hae] at *; exact h.mark_notin)
  subst hW
  exact {
    top := hq
    others := fun t => by
      rw [hp]
      by_cases hu : t = T
      · subst hu; rw [upd_same]; rfl
      · rw [upd_ne _ _ hu]
        rcases h.others t hu with hh | ⟨_, hh, _⟩
        · exact hh
        · simp at hh
    fifo := by
      have := h.fifo
      rw [hpc] at this
      rw [ha, hac, this]
      simp [entered] }

/-- Steps of the active thread. -/
theorem Locked.active {thr s s' T e W a} (h : Locked thr s T e W)
    (hs : step thr s T a = some s') :
    (∃ o, s.pc T = .u0 o ∧ s.top = o ∧ Free s') ∨
    (∃ p n, s.pc T = .u3 p n ∧ Locked thr s' (thr p) p W.dropLast) ∨
    ((∀ o, s.pc T = .u0 o → s.top ≠ o) ∧ (∀ p n, s.pc T ≠ .u3 p n) ∧ Locked thr s' T e W) := by
  have hact := h.act
  have hfifo := h.fifo
  have hnx := h.mnext
  unfold Act at hact
  unfold step at hs
  cases hpc : s.pc T <;> rw [hpc] at hact hs hfifo <;> simp only [] at hact hs
  case u0 o =>
    subst hact
    by_cases hq : s.top = o
    · rw [if_pos hq] at hs
      injection hs with hs; subst hs
      exact Or.inl ⟨o, rfl, hq, h.release hpc hq rfl rfl rfl rfl⟩
    · rw [if_neg hq] at hs
      injection hs with hs; subst hs
      refine Or.inr (Or.inr ⟨fun o' ho' => ?_, fun p n hh => (by cases hh), ?_⟩)
      · injection ho' with ho'; subst ho'; exact hq
      refine h.act_step rfl rfl (fun u hu => upd_ne _ _ hu) ?_ ?_
      · unfold Act
        simp only [St.goto, upd_same]
        refine ⟨trivial, ?_⟩
        have := h.chain
        cases W with
        | nil => exact absurd this hq
        | cons b W => rw [this.1]; simp
      · simpa only [St.goto, upd_same, entered] using hfifo
  case u3 p n =>
    injection hs with hs; subst hs
    exact Or.inr (Or.inl ⟨p, n, rfl, h.handoff hpc rfl rfl rfl rfl rfl⟩)
  all_goals refine Or.inr (Or.inr ⟨fun o hh => (by cases hh), fun p n hh => (by cases hh), ?_⟩)
  case w b =>
    subst hact
    rw [if_neg (by simp [hnx])] at hs
    injection hs with hs; subst hs
    refine h.act_step rfl rfl (fun u hu => upd_ne _ _ hu) ?_ ?_
    · unfold Act; simp only [upd_same]
    · simp only [upd_same]; rw [hfifo]; simp [entered]
  case h b =>
    split at hs
    · injection hs with hs; subst hs
      refine h.act_step rfl rfl (fun u hu => upd_ne _ _ hu) ?_ ?_
      · unfold Act; simp only [upd_same]; exact hact.1
      · simp only [upd_same]; rw [hfifo]; simp [entered]
    · cases hs
  case hold b =>
    injection hs with hs; subst hs
    refine h.act_step rfl rfl (fun u hu => upd_ne _ _ hu) ?_ ?_
    · unfold Act; simp only [St.goto, upd_same]; exact hact
    · simpa only [St.goto, upd_same, entered] using hfifo
  case u b =>
    rw [if_pos (by rw [hact]; exact hnx)] at hs
    injection hs with hs; subst hs
    refine h.act_step rfl rfl (fun u hu => upd_ne _ _ hu) ?_ ?_
    · unfold Act; simp only [St.goto, upd_same]; exact hact
    · simpa only [St.goto, upd_same, entered] using hfifo
  case u1 o p =>
    obtain ⟨rfl, hp⟩ := hact
    have hwalk := h.chain.walk hp
    split at hs
    · next heq =>
      injection hs with hs; subst hs
      refine h.act_step rfl rfl (fun u hu => upd_ne _ _ hu) ?_ ?_
      · unfold Act; simp only [St.goto, upd_same]
        rcases hwalk with hh | hh
        · exact hh.1
        · rw [heq] at hh
          exact absurd hh h.mark_notin
      · simpa only [St.goto, upd_same, entered] using hfifo
    · next hne =>
      injection hs with hs; subst hs
      refine h.act_step rfl rfl (fun u hu => upd_ne _ _ hu) ?_ ?_
      · unfold Act; simp only [St.goto, upd_same]
        refine ⟨trivial, ?_⟩
        rcases hwalk with hh | hh
        · exact absurd hh.2 hne
        · exact hh
      · simpa only [St.goto, upd_same, entered] using hfifo
  case u2 p =>
    injection hs with hs; subst hs
    refine h.act_step rfl rfl (fun u hu => upd_ne _ _ hu) ?_ ?_
    · unfold Act; simp only [St.goto, upd_same]; exact ⟨hact, trivial⟩
    · simpa only [St.goto, upd_same, entered] using hfifo

theorem Slots.goto {thr s t p s'} (h : Slots thr s) (hpc : s'.pc = upd s.pc t p)
    (hp : ∀ a, prep p = some a → thr a = t ∧ a ≠ 0) : Slots thr s' := by
  intro u a
  rw [hpc]
  by_cases hu : u = t
  · subst hu; rw [upd_same]; exact hp a
  · rw [upd_ne _ _ hu]; exact h u a

theorem Slots.step {thr s s' t a} (h : Slots thr s) (hs : step thr s t a = some s') :
    Slots thr s' := by
  unfold MicroLock.step at hs
  cases hpc : s.pc t <;> rw [hpc] at hs <;> simp only [] at hs
  case idle =>
    split at hs
    · next hg =>
      injection hs with hs; subst hs
      refine h.goto rfl (fun b hh => ?_)
      simp [prep] at hh; subst hh; exact ⟨hg.2, hg.1⟩
    · cases hs
  case m0 b =>
    have := h t b (by rw [hpc]; rfl)
    split at hs <;> injection hs with hs <;> subst hs
    · exact h.goto rfl (fun c hh => by simp [prep] at hh)
    · refine h.goto rfl (fun c hh => ?_)
      simp [prep] at hh; subst hh; exact this
  case m1 b k =>
    have := h t b (by rw [hpc]; rfl)
    injection hs with hs; subst hs
    refine h.goto rfl (fun c hh => ?_)
    simp [prep] at hh; subst hh; exact this
  all_goals
    first
    | (injection hs with hs; subst hs
       exact h.goto rfl (fun a hh => by simp [prep] at hh))
    | (split at hs <;> first
        | cases hs; done
        | (injection hs with hs; subst hs
           exact h.goto rfl (fun a hh => by simp [prep] at hh)))

theorem u4_kept {s s' : St} {t T} (htok : s'.token T = s.token T)
    (hp : ∀ u, u ≠ t → s'.pc u = s.pc u) (hn : ∀ n, s.pc t ≠ .u4 n) :
    (s.token T = true ∨ ∃ u, s.pc u = .u4 T) → (s'.token T = true ∨ ∃ u, s'.pc u = .u4 T) := by
  rintro (h | ⟨u, hu⟩)
  · exact Or.inl (by rw [htok]; exact h)
  · refine Or.inr ⟨u, ?_⟩
    rw [hp u (fun hh => by subst hh; exact hn _ hu)]; exact hu

/-- Steps of a thread which is neither active nor waiting, while the lock is taken. -/
theorem Locked.other {thr s s' T e W t a} (h : Locked thr s T e W) (hc : Slots thr s)
    (hpass : passive (s.pc t) = true) (hs : step thr s t a = some s') :
    ∃ W', Locked thr s' T e W' := by
  have hq := h.top_ne
  unfold step at hs
  cases hpc : s.pc t <;> rw [hpc] at hs hpass <;> simp only [] at hs <;>
    try (simp [passive] at hpass; done)
  case idle =>
    split at hs
    · next hg =>
      injection hs with hs; subst hs
      have hna := h.own_slot (t := t) (by rw [hpc]; rfl) hg.2
      exact ⟨W, h.frame (t := t) rfl rfl rfl
        (fun b m => upd_ne _ _ (fun hh => m.elim (fun m => hna.1 (hh ▸ m)) (fun m => hna.2 (hh ▸ m))))
        (fun u hu => upd_ne _ _ hu)
        (by rw [hpc]; rfl) (by simp [upd_same, passive])
        (u4_kept rfl (fun u hu => upd_ne _ _ hu) (by simp [hpc]))⟩
    · cases hs
  case m0 b =>
    have hsl := hc t b (by rw [hpc]; rfl)
    split at hs
    · next hqt =>
      injection hs with hs; subst hs
      exact ⟨b :: W, h.push (t := t) (by rw [hpc]; rfl) hsl.1 hsl.2 hqt.symm rfl rfl rfl rfl
        rfl (by simp [hpc]) rfl⟩
    · injection hs with hs; subst hs
      exact ⟨W, h.frame (t := t) rfl rfl rfl (fun _ _ => rfl) (fun u hu => upd_ne _ _ hu)
        (by rw [hpc]; rfl) (by simp [St.goto, upd_same, passive])
        (u4_kept rfl (fun u hu => upd_ne _ _ hu) (by simp [hpc]))⟩
  case m1 b k =>
    injection hs with hs; subst hs
    have hna := h.own_slot (t := t) (by rw [hpc]; rfl) (hc t b (by rw [hpc]; rfl)).1
    exact ⟨W, h.frame (t := t) rfl rfl rfl
      (fun c m => upd_ne _ _ (fun hh => m.elim (fun m => hna.1 (hh ▸ m)) (fun m => hna.2 (hh ▸ m))))
      (fun u hu => upd_ne _ _ hu)
      (by rw [hpc]; rfl) (by simp [upd_same, passive])
      (u4_kept rfl (fun u hu => upd_ne _ _ hu) (by simp [hpc]))⟩
  case u4 n =>
    injection hs with hs; subst hs
    refine ⟨W, h.frame (t := t) rfl rfl rfl (fun _ _ => rfl) (fun u hu => upd_ne _ _ hu)
      (by rw [hpc]; rfl) (by simp [upd_same, passive]) ?_⟩
    rintro (hh | ⟨u, hu⟩)
    · left
      show upd s.token n true T = true
      unfold upd; split
      · rfl
      · exact hh
    · by_cases hut : u = t
      · subst hut
        rw [hpc] at hu
        injection hu with hu
        left
        show upd s.token n true T = true
        rw [hu, upd_same]
      · right; exact ⟨u, by show upd s.pc t .idle u = _; rw [upd_ne _ _ hut]; exact hu⟩

/-- Steps of a waiting thread which was not elected. -/
theorem Locked.waiter {thr s s' T e W t a} (h : Locked thr s T e W) (hT : t ≠ T)
    (hw : ∃ b ∈ W, thr b = t) (hs : step thr s t a = some s') : Locked thr s' T e W := by
  obtain ⟨b, hb, rfl⟩ := hw
  have hwb := h.wait b hb
  have hob := h.next_ne hb
  unfold step at hs
  have h1 := hwb.1
  cases hpc : s.pc (thr b) <;> rw [hpc] at hs h1 <;> simp only [waits, reduceCtorEq] at h1
  case w c =>
    injection h1 with h1; subst h1
    simp only [] at hs
    rw [if_pos hob] at hs
    injection hs with hs; subst hs
    exact h.wait_step (t := thr c) (a := c) rfl rfl rfl rfl (fun u hu => upd_ne _ _ hu) hT
      (by rw [hpc]; rfl) (by simp [St.goto, upd_same, waits]) rfl
  case h c =>
    injection h1 with h1; subst h1
    simp only [] at hs
    split at hs
    · injection hs with hs; subst hs
      exact h.wait_step (t := thr c) (a := c) rfl rfl rfl rfl (fun u hu => upd_ne _ _ hu) hT
        (by rw [hpc]; rfl) (by simp [upd_same, waits]) (upd_ne _ _ (Ne.symm hT))
    · cases hs

theorem Free.keep {s s' t p} (f : Free s) (hq : s'.top = s.top)
    (ha : s'.arrivals = s.arrivals) (hac : s'.acquired = s.acquired) (hp : s'.pc = upd s.pc t p)
    (hpp : passive p = true) : Free s' where
  top := by rw [hq, f.top]
  others u := by
    rw [hp]
    by_cases hu : u = t
    · subst hu; rw [upd_same]; exact hpp
    · rw [upd_ne _ _ hu]; exact f.others u
  fifo := by rw [ha, hac, f.fifo]

/-- Steps while the lock is free. -/
theorem Free.step {thr s s' t a} (f : Free s) (hc : Slots thr s)
    (hs : step thr s t a = some s') : Free s' ∨ ∃ T e W, Locked thr s' T e W := by
  have hpass := f.others t
  have hq := f.top
  unfold MicroLock.step at hs
  cases hpc : s.pc t <;> rw [hpc] at hs hpass <;> simp only [] at hs <;>
    try (simp [passive] at hpass; done)
  case idle =>
    split at hs
    · injection hs with hs; subst hs
      exact Or.inl (f.keep rfl rfl rfl rfl rfl)
    · cases hs
  case m0 b =>
    have hsl := hc t b (by rw [hpc]; rfl)
    split at hs
    · next hqt =>
      injection hs with hs; subst hs
      refine Or.inr ⟨t, b, [], ?_⟩
      exact {
        mark := hsl.1
        mark0 := hsl.2
        mnext := by show s.next b = 0; rw [← hqt, hq]
        chain := rfl
        wait := by simp
        nodup := by simp
        others := fun u m => Or.inl (by
          show passive (upd s.pc t _ u) = true; rw [upd_ne _ _ m]; exact f.others u)
        act := by unfold Act; simp only [upd_same]
        fifo := by simp only [upd_same]; rw [f.fifo]; simp [entered] }
    · injection hs with hs; subst hs
      exact Or.inl (f.keep rfl rfl rfl rfl rfl)
  case m1 b k =>
    injection hs with hs; subst hs
    exact Or.inl (f.keep rfl rfl rfl rfl rfl)
  case u4 n =>
    injection hs with hs; subst hs
    exact Or.inl (f.keep rfl rfl rfl rfl rfl)

theorem Inv.step {thr s s' t a} (h : Inv thr s) (hs : step thr s t a = some s') : Inv thr s' := by
  obtain ⟨hc, h⟩ := h
  refine ⟨hc.step hs, ?_⟩
  rcases h with f | ⟨T, e, W, l⟩
  · exact f.step hc hs
  · by_cases hT : t = T
    · subst hT
      rcases l.active hs with ⟨_, _, _, f⟩ | ⟨p, _, _, l⟩ | ⟨_, _, l⟩
      · exact Or.inl f
      · exact Or.inr ⟨_, _, _, l⟩
      · exact Or.inr ⟨_, _, _, l⟩
    · rcases l.others t hT with hp | hw
      · obtain ⟨W', l⟩ := l.other hc hp hs
        exact Or.inr ⟨T, e, W', l⟩
      · exact Or.inr ⟨T, e, W, l.waiter hT hw hs⟩

theorem Reach.inv {thr s} (h : Reach thr s) : Inv thr s := by
  induction h with
  | init =>
    refine ⟨?_, Or.inl ⟨rfl, fun _ => rfl, rfl⟩⟩
    intro t a h; simp [prep] at h
  | step _ hs ih => exact ih.step hs
  | @wake s t _ ih =>
    refine ⟨ih.1, ih.2.imp (fun f => ⟨f.top, f.others, f.fifo⟩) ?_⟩
    rintro ⟨T, e, W, l⟩
    refine ⟨T, e, W, l.act_step rfl rfl (fun _ _ => rfl) ?_ l.fifo⟩
    refine l.act.congr rfl (Or.imp (fun hh => ?_) id)
    show upd s.token t true T = true
    unfold upd; split
    · rfl
    · exact hh

/-! ## C31 -/

/-- C31: at no time two threads are inside of the guarded section. -/
theorem c31_mutual_exclusion {thr s t u} (h : Reach thr s) (ht : Holds s t) (hu : Holds s u) :
    t = u := by
  obtain ⟨a, ht⟩ := ht
  obtain ⟨b, hu⟩ := hu
  rcases h.inv.2 with f | ⟨T, e, W, l⟩
  · have := f.others t; rw [ht] at this; cases this
  · rw [l.eq_T (t := t) (by rw [ht]; rfl) (by rw [ht]; rfl),
      l.eq_T (t := u) (by rw [hu]; rfl) (by rw [hu]; rfl)]

/-- C31: the lock is acquired in the order of the arrivals in the queue. -/
theorem c31_fifo {thr s} (h : Reach thr s) : s.acquired <+: s.arrivals := by
  rcases h.inv.2 with f | ⟨T, e, W, l⟩
  · rw [f.fifo]; exact List.prefix_rfl
  · rw [l.fifo, List.append_assoc]; exact List.prefix_append _ _

/-- C31: the objects which `unlock` reads and writes belong to threads which wait with them. -/
theorem c31_unlock_reads_live {thr s t p} (h : Reach thr s)
    (ht : (∃ o, s.pc t = .u1 o p) ∨ s.pc t = .u2 p ∨ ∃ n, s.pc t = .u3 p n) :
    p ≠ 0 ∧ thr p ≠ t ∧ (s.pc (thr p) = .w p ∨ s.pc (thr p) = .h p) := by
  have key : ∀ T e W, Locked thr s T e W → t = T → p ∈ W →
      p ≠ 0 ∧ thr p ≠ t ∧ (s.pc (thr p) = .w p ∨ s.pc (thr p) = .h p) := by
    intro T e W l hT hp
    obtain ⟨x, y, z⟩ := l.wait p hp
    refine ⟨z, by rw [hT]; exact y, ?_⟩
    revert x
    cases s.pc (thr p) <;> simp [waits]
  rcases h.inv.2 with f | ⟨T, e, W, l⟩
  · have := f.others t
    rcases ht with ⟨o, ht⟩ | ht | ⟨n, ht⟩ <;> rw [ht] at this <;> cases this
  · have hact := l.act
    unfold Act at hact
    rcases ht with ⟨o, ht⟩ | ht | ⟨n, ht⟩ <;>
      have hT := l.eq_T (t := t) (by rw [ht]; rfl) (by rw [ht]; rfl) <;>
      refine key T e W l hT ?_ <;> rw [← hT, ht] at hact
    · exact hact.2
    · exact List.mem_of_getLast? hact
    · exact List.mem_of_getLast? hact.1

theorem Run.trans {thr s s' s''} (h : Run thr s s') (h' : Run thr s' s'') : Run thr s s'' := by
  induction h with
  | refl => exact h'
  | step b _ ih => exact .step b (ih h')

/-- The active thread continues. -/
theorem Locked.run1 {thr s s' T e W} (l : Locked thr s T e W)
    (hs : step thr s T 0 = some s') (h2 : ∀ o, s.pc T = .u0 o → s.top ≠ o)
    (h5 : ∀ p n, s.pc T ≠ .u3 p n) : Run thr s s' ∧ Locked thr s' T e W := by
  refine ⟨.step hs .refl, ?_⟩
  rcases l.active hs with ⟨o, h, hq, _⟩ | ⟨p, n, h, _⟩ | ⟨_, _, l⟩
  · exact absurd hq (h2 o h)
  · exact absurd h (h5 p n)
  · exact l

/-- A thread which was elected comes to own the lock. -/
theorem Locked.enter {thr s T e W} (l : Locked thr s T e W) (hn : entered (s.pc T) = false) :
    ∃ s', Run thr s s' ∧ s'.pc T = .hold e ∧ Locked thr s' T e W := by
  have one : ∀ {s : St} {a}, Locked thr s T e W → s.pc T = .w a →
      ∃ s', Run thr s s' ∧ s'.pc T = .hold e ∧ Locked thr s' T e W := by
    intro s a l hpc
    have hact := l.act
    unfold Act at hact
    rw [hpc] at hact
    have hae : a = e := hact
    subst hae
    obtain ⟨r, l'⟩ := l.run1
      (by unfold step; rw [hpc]; simp only []; rw [if_neg (by simp [l.mnext])])
      (by simp [hpc]) (by simp [hpc])
    exact ⟨_, r, upd_same _ _ _, l'⟩
  have tok : ∀ {s : St} {a}, Locked thr s T e W → s.pc T = .h a → s.token T = true →
      ∃ s', Run thr s s' ∧ s'.pc T = .hold e ∧ Locked thr s' T e W := by
    intro s a l hpc ht
    obtain ⟨r, l'⟩ := l.run1
      (by unfold step; rw [hpc]; simp only []; rw [if_pos ht]) (by simp [hpc]) (by simp [hpc])
    obtain ⟨s', r', h⟩ := one l' (upd_same _ _ _)
    exact ⟨s', r.trans r', h⟩
  have hact := l.act
  unfold Act at hact
  cases hpc : s.pc T <;> rw [hpc] at hn hact <;> simp only [entered, Bool.true_eq_false] at hn
  case w a => exact one l hpc
  case h a =>
    rcases hact.2 with ht | ⟨u, hu⟩
    · exact tok l hpc ht
    · have huT : u ≠ T := fun h2 => by subst h2; rw [hu] at hpc; cases hpc
      have hs : step thr s u 0 =
          some { s with token := upd s.token T true, pc := upd s.pc u .idle } := by
        unfold step; rw [hu]
      have l' : Locked thr { s with token := upd s.token T true, pc := upd s.pc u .idle } T e W :=
        l.frame (t := u) rfl rfl rfl (fun _ _ => rfl) (fun v hv => upd_ne _ _ hv)
          (by rw [hu]; rfl) (by simp [upd_same, passive]) (fun _ => Or.inl (upd_same _ _ _))
      obtain ⟨s', r', h1, h2⟩ := tok l' (a := a)
        (by show upd s.pc u .idle T = _; rw [upd_ne _ _ (Ne.symm huT)]; exact hpc) (upd_same _ _ _)
      exact ⟨s', .step hs r', h1, h2⟩

/-- The owner lets the oldest waiter in. -/
theorem Locked.pass_on {thr s T e V p} (l : Locked thr s T e (V ++ [p]))
    (hn : entered (s.pc T) = true) :
    ∃ s', Run thr s s' ∧ waits (s'.pc (thr p)) = some p ∧ Locked thr s' (thr p) p V := by
  have c5 : ∀ {s : St} {q n}, Locked thr s T e (V ++ [p]) → s.pc T = .u3 q n →
      ∃ s', Run thr s s' ∧ waits (s'.pc (thr p)) = some p ∧ Locked thr s' (thr p) p V := by
    intro s q n l hpc
    have hact := l.act
    unfold Act at hact
    rw [hpc] at hact
    have hq : q = p := by simpa using hact.1.symm
    subst hq
    have hs : step thr s T 0 = some { s with next := upd s.next q 0, pc := upd s.pc T (.u4 n) } := by
      unfold step; rw [hpc]
    refine ⟨_, .step hs .refl, ?_, ?_⟩
    · show waits (upd s.pc T (.u4 n) (thr q)) = some q
      rw [upd_ne _ _ (l.wait q (by simp)).2.1]
      exact (l.wait q (by simp)).1
    · have := l.handoff (s' := { s with next := upd s.next q 0, pc := upd s.pc T (.u4 n) }) hpc
        rfl rfl rfl rfl rfl
      rwa [List.dropLast_concat] at this
  have c4 : ∀ {s : St} {q}, Locked thr s T e (V ++ [p]) → s.pc T = .u2 q →
      ∃ s', Run thr s s' ∧ waits (s'.pc (thr p)) = some p ∧ Locked thr s' (thr p) p V := by
    intro s q l hpc
    obtain ⟨r, l'⟩ := l.run1 (by unfold step; rw [hpc]) (by simp [hpc]) (by simp [hpc])
    obtain ⟨s', r', h⟩ := c5 l' (upd_same _ _ _)
    exact ⟨s', r.trans r', h⟩
  have c3 : ∀ (B A : List Nat) {s : St} {o q}, V ++ [p] = A ++ q :: B →
      Locked thr s T e (V ++ [p]) → s.pc T = .u1 o q →
      ∃ s', Run thr s s' ∧ waits (s'.pc (thr p)) = some p ∧ Locked thr s' (thr p) p V := by
    intro B
    induction B with
    | nil =>
      intro A s o q hsplit l hpc
      have hact := l.act
      unfold Act at hact
      rw [hpc] at hact
      have hch := l.chain
      rw [hsplit] at hch
      have hne : s.next q = o := by rw [hact.1]; exact hch.next_of
      obtain ⟨r, l'⟩ := l.run1
        (by unfold step; rw [hpc]; simp only []; rw [if_pos hne]) (by simp [hpc]) (by simp [hpc])
      obtain ⟨s', r', h⟩ := c4 l' (upd_same _ _ _)
      exact ⟨s', r.trans r', h⟩
    | cons b B ih =>
      intro A s o q hsplit l hpc
      have hact := l.act
      unfold Act at hact
      rw [hpc] at hact
      have hch := l.chain
      rw [hsplit] at hch
      have hnb : s.next q = b := hch.next_of.1
      have hne : s.next q ≠ o := by
        rw [hnb, hact.1]
        intro hh
        exact l.mark_notin (by rw [hsplit, ← hh]; simp)
      obtain ⟨r, l'⟩ := l.run1
        (by unfold step; rw [hpc]; simp only []; rw [if_neg hne]) (by simp [hpc]) (by simp [hpc])
      obtain ⟨s', r', h⟩ := ih (A ++ [q]) (q := b) (o := o) (by rw [hsplit]; simp) l'
        (by simp only [St.goto, upd_same]; rw [hnb])
      exact ⟨s', r.trans r', h⟩
  have c2 : ∀ {s : St} {o}, Locked thr s T e (V ++ [p]) → s.pc T = .u0 o →
      ∃ s', Run thr s s' ∧ waits (s'.pc (thr p)) = some p ∧ Locked thr s' (thr p) p V := by
    intro s o l hpc
    have hact := l.act
    unfold Act at hact
    rw [hpc] at hact
    have hoe : o = e := hact
    obtain ⟨b, B, hB⟩ : ∃ b B, V ++ [p] = b :: B := by cases V <;> simp
    have hch := l.chain
    rw [hB] at hch
    have hq : s.top ≠ o := by
      rw [hch.1, hoe]
      intro hh
      exact l.mark_notin (by rw [hB, ← hh]; simp)
    obtain ⟨r, l'⟩ := l.run1
      (by unfold step; rw [hpc]; simp only []; rw [if_neg hq])
      (by intro o' h; rw [hpc] at h; injection h with h; rw [← h]; exact hq) (by simp [hpc])
    obtain ⟨s', r', h⟩ := c3 B [] (q := b) (o := o) (by rw [hB]; rfl) l'
      (by simp only [St.goto, upd_same]; rw [hch.1])
    exact ⟨s', r.trans r', h⟩
  have c1 : ∀ {s : St} {o}, Locked thr s T e (V ++ [p]) → s.pc T = .u o →
      ∃ s', Run thr s s' ∧ waits (s'.pc (thr p)) = some p ∧ Locked thr s' (thr p) p V := by
    intro s o l hpc
    have hact := l.act
    unfold Act at hact
    rw [hpc] at hact
    have hoe : o = e := hact
    obtain ⟨r, l'⟩ := l.run1
      (by unfold step; rw [hpc]; simp only []; rw [if_pos (by rw [hoe]; exact l.mnext)])
      (by simp [hpc]) (by simp [hpc])
    obtain ⟨s', r', h⟩ := c2 l' (upd_same _ _ _)
    exact ⟨s', r.trans r', h⟩
  have hact := l.act
  unfold Act at hact
  cases hpc : s.pc T <;> rw [hpc] at hn hact <;> simp only [entered, Bool.false_eq_true] at hn <;>
    simp only [] at hact
  case hold =>
    obtain ⟨r, l'⟩ := l.run1 (by unfold step; rw [hpc]) (by simp [hpc]) (by simp [hpc])
    obtain ⟨s', r', h⟩ := c1 l' (upd_same _ _ _)
    exact ⟨s', r.trans r', h⟩
  case u => exact c1 l hpc
  case u0 => exact c2 l hpc
  case u1 o q =>
    obtain ⟨A, B, hAB⟩ := List.append_of_mem hact.2
    exact c3 B A hAB l hpc
  case u2 => exact c4 l hpc
  case u3 => exact c5 l hpc

theorem Locked.serve {thr t} : ∀ (n : Nat) {s T e W}, W.length = n → Locked thr s T e W →
    (∃ a ∈ W, thr a = t) → ∃ s', Run thr s s' ∧ Holds s' t := by
  intro n
  induction n with
  | zero =>
    intro s T e W hlen _ ⟨a, ha, _⟩
    rw [List.length_eq_zero_iff.1 hlen] at ha; simp at ha
  | succ n ih =>
    intro s T e W hlen l ⟨a, ha, hat⟩
    have hne : W ≠ [] := fun hh => by rw [hh] at hlen; simp at hlen
    obtain ⟨V, p, rfl⟩ : ∃ V p, W = V ++ [p] := ⟨_, _, (List.dropLast_concat_getLast hne).symm⟩
    obtain ⟨s1, r1, l1, he⟩ : ∃ s', Run thr s s' ∧ Locked thr s' T e (V ++ [p]) ∧
        entered (s'.pc T) = true := by
      by_cases he : entered (s.pc T) = true
      · exact ⟨s, .refl, l, he⟩
      · obtain ⟨s', r, h, l'⟩ := l.enter (by simpa using he)
        exact ⟨s', r, l', by rw [h]; rfl⟩
    obtain ⟨s2, r2, hw, l2⟩ := l1.pass_on he
    have hn2 : entered (s2.pc (thr p)) = false := by
      revert hw
      cases s2.pc (thr p) <;> simp [waits, entered]
    rcases List.mem_append.1 ha with ha | ha
    · obtain ⟨s3, r3, h3⟩ := ih (by simpa using hlen) l2 ⟨a, ha, hat⟩
      exact ⟨s3, (r1.trans r2).trans r3, h3⟩
    · simp at ha; subst ha
      obtain ⟨s3, r3, h3, _⟩ := l2.enter hn2
      exact ⟨s3, (r1.trans r2).trans r3, ⟨_, by rw [← hat]; exact h3⟩⟩

/-- C31: no waiter is lost: from every reachable state each waiting thread can still be served. -/
theorem c31_waiter_served {thr s t} (h : Reach thr s) (hw : Waiting s t) :
    ∃ s', Run thr s s' ∧ Holds s' t := by
  obtain ⟨a, hw⟩ := hw
  rcases h.inv.2 with f | ⟨T, e, W, l⟩
  · have := f.others t
    rcases hw with hw | hw <;> rw [hw] at this <;> cases this
  · by_cases hT : t = T
    · subst hT
      obtain ⟨s', r, h, _⟩ := l.enter (by rcases hw with hw | hw <;> rw [hw] <;> rfl)
      exact ⟨s', r, _, h⟩
    · rcases l.others t hT with hp | hp
      · rcases hw with hw | hw <;> rw [hw] at hp <;> cases hp
      · exact l.serve W.length rfl hp

/-! ## A concrete run -/

/-- Runs a schedule: thread, address. -/
def exec (thr : Nat → Nat) : St → List (Nat × Nat) → Option St
  | s, [] => some s
  | s, (t, a) :: l => (step thr s t a).bind fun s' => exec thr s' l

/-- Thread 1 locks, 2 and 3 queue, 1 unlocks walking over 3's object to 2's, 2 gets the lock. -/
def demo : List (Nat × Nat) :=
  [(1, 11), (1, 0), (1, 0), (2, 25), (2, 0), (2, 0), (2, 0), (2, 0),
   (3, 33), (3, 0), (3, 0), (3, 0), (1, 0), (1, 0), (1, 0), (1, 0), (1, 0), (1, 0), (1, 0), (1, 0),
   (2, 0), (2, 0)]

example : (exec LS.FastLock.stacks {} demo).map (fun s => (s.pc 1, s.pc 2, s.pc 3)) =
    some (.idle, .hold 25, .w 33) := by decide +kernel
example : (exec LS.FastLock.stacks {} demo).map (fun s => (s.top, s.acquired, s.arrivals)) =
    some (33, [1, 2], [1, 2, 3]) := by decide +kernel

end LS.MicroLock

import Verif.FastLock
/-! # Properties C29, C30 (and C68, C69): FastLock -/

namespace LS.FastLock

/-! ## Specification -/

/-- Ordinary use: `lock`, `tryLock`, and `unlock` by the thread which owns the lock. -/
def Ordinary : Op → Prop
  | .lock | .tryLock | .unlock => True
  | _ => False

/-- The thread is in the queue and waits for the lock. -/
def Waiting (s : St) (t : Nat) : Prop := ∃ a, s.pc t = .w a ∨ s.pc t = .h a

/-- A finite run by operations allowed by `ok`, without outside help (no spontaneous tokens). -/
inductive Run (thr : Nat → Nat) (ok : Op → Prop) : St → St → Prop
  | refl {s} : Run thr ok s s
  | step {s s' s'' t op a} : ok op → step thr s t op a = some s' → Run thr ok s' s'' →
      Run thr ok s s''

/-! ## Invariant -/

/-- The slots from `q` along `next` are `W`, then the end mark `e`. -/
def Chain (next : Nat → Nat) : Nat → List Nat → Nat → Prop
  | q, [], e => q = e
  | q, a :: W, e => q = a ∧ Chain next (next a) W e

/-- Program counters of threads which neither own, take, release nor wait. -/
def passive : PC → Bool
  | .idle | .l0 | .t0 | .y0 | .s0 false | .s1 false _ _ | .s2 false _ _ | .u6 _ => true
  | _ => false

/-- The slot a thread waits with. -/
def waits : PC → Option Nat
  | .w a | .h a => some a
  | _ => none

/-- The slot a thread has prepared. -/
def prep : PC → Option Nat
  | .s1 _ a _ | .s2 _ a _ => some a
  | _ => none

/-- The thread has passed the moment of acquisition. -/
def entered : PC → Bool
  | .t1 _ | .s3 _ | .w _ | .h _ => false
  | _ => true

/-- What the program counter of the active thread says about `owner`, the mark and the waiters. -/
def Act (thr : Nat → Nat) (s : St) (T e : Nat) (W : List Nat) : Prop :=
  match s.pc T with
  | .t1 a | .s3 a => a = e ∧ s.owner = 0
  | .w a => a = e ∧ s.owner = e
  | .h a => a = e ∧ s.owner = e ∧ (s.token T = true ∨ ∃ u, s.pc u = .u6 T)
  | .hold | .u0 => s.owner = e
  | .u1 o => o = e ∧ s.owner = e
  | .u2 o => o = e ∧ s.owner = 0
  | .u3 o p => o = e ∧ s.owner = 0 ∧ p ∈ W
  | .u4 p => s.owner = 0 ∧ W.getLast? = some p
  | .u5 p n => s.owner = 0 ∧ W.getLast? = some p ∧ n = thr p
  | _ => False

/-- The part of the invariant about prepared slots. -/
structure Common (thr : Nat → Nat) (s : St) : Prop where
  slots : ∀ t a, prep (s.pc t) = some a → thr a = t ∧ a ≠ 0
  nexts : ∀ t y a tmp, s.pc t = .s2 y a tmp → s.next a = tmp

/-- Nobody has the lock. -/
structure Free (s : St) : Prop where
  queue : s.queue = 0
  owner : s.owner = 0
  others : ∀ t, passive (s.pc t) = true
  fifo : s.arrivals = s.acquired

/-- Thread `T` has the lock, its mark is `e`, the waiting slots are `W`, the newest first. -/
structure Locked (thr : Nat → Nat) (s : St) (T e : Nat) (W : List Nat) : Prop where
  mark : thr e = T
  mark0 : e ≠ 0
  chain : Chain s.next s.queue W e
  wait : ∀ a ∈ W, waits (s.pc (thr a)) = some a ∧ thr a ≠ T ∧ a ≠ 0
  nodup : W.Nodup
  others : ∀ t, t ≠ T → passive (s.pc t) = true ∨ ∃ a ∈ W, thr a = t
  act : Act thr s T e W
  fifo : s.arrivals = s.acquired ++ (if entered (s.pc T) then [] else [T]) ++ W.reverse.map thr

/-- The invariant. -/
def Inv (thr : Nat → Nat) (s : St) : Prop :=
  Common thr s ∧ (Free s ∨ ∃ T e W, Locked thr s T e W)

theorem upd_same {β} (f : Nat → β) (i v) : upd f i v i = v := by simp [upd]
theorem upd_ne {β} (f : Nat → β) {i j} (v) (h : j ≠ i) : upd f i v j = f j := by simp [upd, h]

theorem Chain.congr {n n' : Nat → Nat} {q W e} (h : ∀ a ∈ W, n' a = n a) (hc : Chain n q W e) :
    Chain n' q W e := by
  induction W generalizing q with
  | nil => exact hc
  | cons a W ih =>
    refine ⟨hc.1, ?_⟩
    rw [h a (by simp)]
    exact ih (fun b hb => h b (by simp [hb])) hc.2

theorem Chain.walk {n : Nat → Nat} {q W e p} (hc : Chain n q W e) (hp : p ∈ W) :
    (W.getLast? = some p ∧ n p = e) ∨ n p ∈ W := by
  induction W generalizing q with
  | nil => simp at hp
  | cons a W ih =>
    obtain ⟨rfl, hc⟩ := hc
    cases W with
    | nil =>
      simp at hp; subst hp
      exact Or.inl ⟨rfl, hc⟩
    | cons b W =>
      rcases List.mem_cons.1 hp with rfl | hp
      · exact Or.inr (by rw [hc.1]; simp)
      · rcases ih hc hp with h | h
        · exact Or.inl ⟨by rw [← h.1]; simp, h.2⟩
        · exact Or.inr (by simp [h])

theorem Chain.dropLast {n : Nat → Nat} {q W p e} (hc : Chain n q (W ++ [p]) e) : Chain n q W p := by
  induction W generalizing q with
  | nil => exact hc.1
  | cons a W ih => exact ⟨hc.1, ih hc.2⟩

theorem Locked.queue_ne {thr s T e W} (h : Locked thr s T e W) : s.queue ≠ 0 := by
  cases W with
  | nil => rw [show s.queue = e from h.chain]; exact h.mark0
  | cons a W => rw [h.chain.1]; exact (h.wait a (by simp)).2.2

theorem Locked.T_not_passive {thr s T e W} (h : Locked thr s T e W) : passive (s.pc T) = false := by
  have := h.act
  unfold Act at this
  split at this <;> simp_all [passive]

/-- A step of the active thread which stays active. -/
theorem Locked.act_step {thr s s' T e W} (h : Locked thr s T e W) (hq : s'.queue = s.queue)
    (hn : s'.next = s.next) (hp : ∀ t, t ≠ T → s'.pc t = s.pc t) (ha : Act thr s' T e W)
    (hf : s'.arrivals = s'.acquired ++ (if entered (s'.pc T) then [] else [T])
      ++ W.reverse.map thr) : Locked thr s' T e W where
  mark := h.mark
  mark0 := h.mark0
  chain := by rw [hq, hn]; exact h.chain
  wait a m := by rw [hp _ (h.wait a m).2.1]; exact h.wait a m
  nodup := h.nodup
  others t m := by rw [hp _ m]; exact h.others t m
  act := ha
  fifo := hf

/-- A step of another thread, which is passive before and after. -/
theorem Locked.frame {thr s s' T e W t} (h : Locked thr s T e W) (hq : s'.queue = s.queue)
    (ho : s'.owner = s.owner) (ha : s'.arrivals = s.arrivals) (hac : s'.acquired = s.acquired)
    (hn : ∀ a, a ∈ W → s'.next a = s.next a)
    (hp : ∀ u, u ≠ t → s'.pc u = s.pc u) (h1 : passive (s.pc t) = true)
    (h2 : passive (s'.pc t) = true)
    (htok : (s.token T = true ∨ ∃ u, s.pc u = .u6 T) → (s'.token T = true ∨ ∃ u, s'.pc u = .u6 T)) :
    Locked thr s' T e W := by
  have hT : T ≠ t := fun hh => by
    have := h.T_not_passive
    rw [hh, h1] at this; cases this
  have hw : ∀ a ∈ W, thr a ≠ t := fun a m hh => by
    have := (h.wait a m).1
    rw [hh] at this
    revert this h1
    cases s.pc t <;> simp [passive, waits]
  exact {
    mark := h.mark
    mark0 := h.mark0
    chain := by rw [hq]; exact h.chain.congr hn
    wait := fun a m => by rw [hp _ (hw a m)]; exact h.wait a m
    nodup := h.nodup
    others := fun u m => by
      by_cases hu : u = t
      · subst hu; exact Or.inl h2
      · rw [hp _ hu]; exact h.others u m
    act := by
      have := h.act
      unfold Act at this ⊢
      rw [hp _ hT, ho]
      split at this <;> simp_all
    fifo := by rw [ha, hac, hp _ hT]; exact h.fifo }

/-- A wait loop iteration of a thread in the queue. -/
theorem Locked.wait_step {thr s s' T e W t a} (h : Locked thr s T e W) (hq : s'.queue = s.queue)
    (ho : s'.owner = s.owner) (ha : s'.arrivals = s.arrivals) (hac : s'.acquired = s.acquired)
    (hn : s'.next = s.next) (hp : ∀ u, u ≠ t → s'.pc u = s.pc u) (hT : t ≠ T)
    (h1 : waits (s.pc t) = some a) (h2 : waits (s'.pc t) = some a)
    (htok : s'.token T = s.token T) : Locked thr s' T e W where
  mark := h.mark
  mark0 := h.mark0
  chain := by rw [hq, hn]; exact h.chain
  wait b m := by
    obtain ⟨x, y, z⟩ := h.wait b m
    refine ⟨?_, y, z⟩
    by_cases hb : thr b = t
    · rw [hb] at x ⊢; rw [h2, ← h1, x]
    · rw [hp _ hb]; exact x
  nodup := h.nodup
  others u m := by
    by_cases hu : u = t
    · subst hu
      rcases h.others u m with hh | hh
      · revert hh h1; cases s.pc u <;> simp [passive, waits]
      · exact Or.inr hh
    · rw [hp _ hu]; exact h.others u m
  act := by
    have := h.act
    unfold Act at this ⊢
    rw [hp _ (Ne.symm hT), ho, htok]
    split at this <;> try exact this
    refine ⟨this.1, this.2.1, this.2.2.imp id fun ⟨u, hu⟩ => ⟨u, ?_⟩⟩
    by_cases hut : u = t
    · subst hut; rw [hu] at h1; cases h1
    · rw [hp _ hut]; exact hu
  fifo := by rw [ha, hac, hp _ (Ne.symm hT)]; exact h.fifo

theorem Common.goto {thr s t p s'} (h : Common thr s) (hn : s'.next = s.next)
    (hpc : s'.pc = upd s.pc t p)
    (hp : ∀ a, prep p = some a → thr a = t ∧ a ≠ 0) (h2 : ∀ y a tmp, p ≠ .s2 y a tmp) :
    Common thr s' where
  slots u a := by
    rw [hpc]
    by_cases hu : u = t
    · subst hu; rw [upd_same]; exact hp a
    · rw [upd_ne _ _ hu]; exact h.slots u a
  nexts u y a tmp := by
    rw [hpc, hn]
    by_cases hu : u = t
    · subst hu; rw [upd_same]; exact fun hh => absurd hh (h2 y a tmp)
    · rw [upd_ne _ _ hu]; exact h.nexts u y a tmp

theorem Common.write {thr s t p s' a v} (h : Common thr s) (ht : thr a = t) (h0 : a ≠ 0)
    (hn : s'.next = upd s.next a v) (hpc : s'.pc = upd s.pc t p)
    (hp : ∀ b, prep p = some b → b = a) (h2 : ∀ y b tmp, p = .s2 y b tmp → b = a ∧ tmp = v) :
    Common thr s' where
  slots u b := by
    rw [hpc]
    by_cases hu : u = t
    · subst hu; rw [upd_same]; intro hb; rw [hp b hb]; exact ⟨ht, h0⟩
    · rw [upd_ne _ _ hu]; exact h.slots u b
  nexts u y b tmp := by
    rw [hpc, hn]
    by_cases hu : u = t
    · subst hu; rw [upd_same]; intro hb
      obtain ⟨rfl, rfl⟩ := h2 y b tmp hb
      rw [upd_same]
    · rw [upd_ne _ _ hu]; intro hb
      have : b ≠ a := fun hh => by
        have := (h.slots u b (by rw [hb]; rfl)).1
        rw [hh, ht] at this; exact hu this.symm
      rw [upd_ne _ _ this]
      exact h.nexts u y b tmp hb

theorem Locked.eq_T {thr s T e W t} (h : Locked thr s T e W) (h1 : passive (s.pc t) = false)
    (h2 : waits (s.pc t) = none) : t = T := by
  apply Classical.byContradiction
  intro hT
  rcases h.others t hT with hh | ⟨a, m, rfl⟩
  · rw [h1] at hh; cases hh
  · rw [(h.wait a m).1] at h2; cases h2

theorem Locked.own_slot {thr s T e W t a} (h : Locked thr s T e W) (h1 : passive (s.pc t) = true)
    (ht : thr a = t) : a ∉ W := fun m => by
  have := (h.wait a m).1
  rw [ht] at this
  revert this h1
  cases s.pc t <;> simp [passive, waits]

/-- A passive thread joins the queue. -/
theorem Locked.push {thr s s' T e W t a} (h : Locked thr s T e W) (h1 : passive (s.pc t) = true)
    (ht : thr a = t) (h0 : a ≠ 0) (hna : s.next a = s.queue) (hq : s'.queue = a)
    (ho : s'.owner = s.owner) (ha : s'.arrivals = s.arrivals ++ [t])
    (hac : s'.acquired = s.acquired) (hn : s'.next = s.next)
    (hp : s'.pc = upd s.pc t (.w a)) (hnu : ∀ n, s.pc t ≠ .u6 n)
    (htok : s'.token = s.token) : Locked thr s' T e (a :: W) := by
  have hT : T ≠ t := fun hh => by
    have := h.T_not_passive
    rw [hh, h1] at this; cases this
  have hpT : s'.pc T = s.pc T := by rw [hp, upd_ne _ _ hT]
  exact {
    mark := h.mark
    mark0 := h.mark0
    chain := ⟨hq, by rw [hn, hna]; exact h.chain⟩
    wait := fun b m => by
      rw [hp]
      rcases List.mem_cons.1 m with rfl | m
      · rw [ht, upd_same]; exact ⟨rfl, Ne.symm hT, h0⟩
      · have : thr b ≠ t := fun hh => h.own_slot h1 hh m
        rw [upd_ne _ _ this]; exact h.wait b m
    nodup := List.nodup_cons.2 ⟨h.own_slot h1 ht, h.nodup⟩
    others := fun u m => by
      by_cases hu : u = t
      · exact Or.inr ⟨a, by simp, by rw [ht, hu]⟩
      · rw [hp, upd_ne _ _ hu]
        exact (h.others u m).imp id fun ⟨b, hb, hh⟩ => ⟨b, by simp [hb], hh⟩
    act := by
      have := h.act
      unfold Act at this ⊢
      rw [hpT, ho, htok]
      split at this <;> try exact this
      · refine ⟨this.1, this.2.1, this.2.2.imp id fun ⟨u, hu⟩ => ⟨u, ?_⟩⟩
        rw [hp, upd_ne _ _ (fun hh => by subst hh; exact hnu _ hu)]; exact hu
      · exact ⟨this.1, this.2.1, by simp [this.2.2]⟩
      · refine ⟨this.1, ?_⟩
        rw [List.getLast?_cons, this.2]; rfl
      · refine ⟨this.1, ?_, this.2.2⟩
        rw [List.getLast?_cons, this.2.1]; rfl
    fifo := by
      rw [ha, hac, hpT, h.fifo]
      simp [ht, List.append_assoc] }

/-- A thread takes the free lock. -/
theorem Free.take {thr s s' t a p} (h : Free s) (ht : thr a = t) (h0 : a ≠ 0) (hq : s'.queue = a)
    (ho : s'.owner = s.owner) (ha : s'.arrivals = s.arrivals ++ [t])
    (hac : s'.acquired = s.acquired) (hp : s'.pc = upd s.pc t p) (hpp : p = .t1 a ∨ p = .s3 a) :
    Locked thr s' t a [] where
  mark := ht
  mark0 := h0
  chain := hq
  wait := by simp
  nodup := by simp
  others u m := Or.inl (by rw [hp, upd_ne _ _ m]; exact h.others u)
  act := by
    unfold Act
    rw [hp, upd_same, ho, h.owner]
    rcases hpp with rfl | rfl <;> exact ⟨rfl, rfl⟩
  fifo := by
    rw [ha, hac, hp, upd_same, h.fifo]
    rcases hpp with rfl | rfl <;> simp [entered]

/-- The owner frees the lock. -/
theorem Locked.release {thr s s' T e W o} (h : Locked thr s T e W) (hpc : s.pc T = .u2 o)
    (hqo : s.queue = o) (hq : s'.queue = 0)
    (ho : s'.owner = s.owner) (ha : s'.arrivals = s.arrivals)
    (hac : s'.acquired = s.acquired) (hp : s'.pc = upd s.pc T .idle) : Free s' := by
  have hact := h.act
  unfold Act at hact
  rw [hpc] at hact
  obtain ⟨rfl, how⟩ := hact
  have hW : W = [] := by
    cases W with
    | nil => rfl
    | cons a W =>
      have h1 := h.chain.1
      have h2 := (h.wait a (by simp)).2.1
      rw [← h1, hqo, h.mark] at h2
      exact absurd rfl h2
  subst hW
  exact {
    queue := hq
    owner := by rw [ho, how]
    others := fun t => by
      rw [hp]
      by_cases hu : t = T
      · subst hu; rw [upd_same]; rfl
      · rw [upd_ne _ _ hu]
        rcases h.others t hu with hh | ⟨_, hh, _⟩
        · exact hh
        · simp at hh
    fifo := by
      have := h.fifo
      rw [hpc] at this
      rw [ha, hac, this]
      simp [entered] }

/-- The owner passes the lock to the oldest waiter. -/
theorem Locked.handoff {thr s s' T e W p n} (h : Locked thr s T e W) (hpc : s.pc T = .u5 p n)
    (hq : s'.queue = s.queue) (hn : s'.next = s.next)
    (ho : s'.owner = p) (ha : s'.arrivals = s.arrivals)
    (hac : s'.acquired = s.acquired) (hp : s'.pc = upd s.pc T (.u6 n)) :
    Locked thr s' (thr p) p W.dropLast := by
  have hact := h.act
  unfold Act at hact
  rw [hpc] at hact
  obtain ⟨how, hl, rfl⟩ := hact
  obtain ⟨V, hW⟩ := List.getLast?_eq_some_iff.1 hl
  subst hW
  rw [List.dropLast_concat]
  have hpw := h.wait p (by simp)
  have hnd : p ∉ V := by
    have := h.nodup
    rw [List.nodup_append] at this
    intro hh
    exact this.2.2 p hh p (by simp) rfl
  exact {
    mark := rfl
    mark0 := hpw.2.2
    chain := by rw [hq, hn]; exact h.chain.dropLast
    wait := fun b m => by
      have hb := h.wait b (by simp [m])
      rw [hp, upd_ne _ _ hb.2.1]
      refine ⟨hb.1, fun hh => hnd ?_, hb.2.2⟩
      have h1 := hb.1
      rw [hh, hpw.1] at h1
      injection h1 with h1
      rw [h1]; exact m
    nodup := (List.nodup_append.1 h.nodup).1
    others := fun t ht => by
      by_cases hu : t = T
      · subst hu; left; rw [hp, upd_same]; rfl
      · rw [hp, upd_ne _ _ hu]
        rcases h.others t hu with hh | ⟨b, hb, hh⟩
        · exact Or.inl hh
        · rcases List.mem_append.1 hb with hb | hb
          · exact Or.inr ⟨b, hb, hh⟩
          · simp at hb; subst hb; exact absurd hh.symm ht
    act := by
      have h1 := hpw.1
      unfold Act
      rw [hp, upd_ne _ _ hpw.2.1, ho]
      cases hx : s.pc (thr p) <;> rw [hx] at h1 <;> simp [waits] at h1
      · exact ⟨h1, rfl⟩
      · exact ⟨h1, rfl, Or.inr ⟨T, by rw [upd_same]⟩⟩
    fifo := by
      have hf := h.fifo
      rw [hpc] at hf
      have h1 := hpw.1
      have he : entered (s.pc (thr p)) = false := by
        revert h1
        cases s.pc (thr p) <;> simp [waits, entered]
      rw [ha, hac, hp, upd_ne _ _ hpw.2.1, hf, he]
      simp [entered] }

theorem Inv.init (thr) : Inv thr {} := by
  refine ⟨⟨?_, ?_⟩, Or.inl ⟨rfl, rfl, fun _ => rfl, rfl⟩⟩
  · intro t a h; simp [prep] at h
  · intro t y a tmp h; simp at h

theorem Act.congr {thr s s' T e W} (h : Act thr s T e W) (hp : s'.pc T = s.pc T)
    (ho : s'.owner = s.owner)
    (hw : (s.token T = true ∨ ∃ u, s.pc u = .u6 T) → (s'.token T = true ∨ ∃ u, s'.pc u = .u6 T)) :
    Act thr s' T e W := by
  unfold Act at h ⊢
  rw [hp, ho]
  split at h <;> try exact h
  exact ⟨h.1, h.2.1, hw h.2.2⟩

theorem Inv.wake {thr s t} (h : Inv thr s) : Inv thr { s with token := upd s.token t true } := by
  refine ⟨⟨h.1.slots, h.1.nexts⟩, h.2.imp (fun f => ⟨f.queue, f.owner, f.others, f.fifo⟩) ?_⟩
  rintro ⟨T, e, W, l⟩
  refine ⟨T, e, W, l.act_step rfl rfl (fun _ _ => rfl) ?_ l.fifo⟩
  refine l.act.congr rfl rfl (Or.imp (fun hh => ?_) id)
  show upd s.token t true T = true
  unfold upd; split
  · rfl
  · exact hh

/-- Steps of the active thread. -/
theorem Locked.active {thr s s' T e W op a} (h : Locked thr s T e W) (hok : Ordinary op)
    (hs : step thr s T op a = some s') :
    (∃ o, s.pc T = .u2 o ∧ s.queue = o ∧ Free s') ∨
    (∃ p n, s.pc T = .u5 p n ∧ Locked thr s' (thr p) p W.dropLast) ∨
    ((∀ o, s.pc T = .u2 o → s.queue ≠ o) ∧ (∀ p n, s.pc T ≠ .u5 p n) ∧ Locked thr s' T e W) := by
  have hact := h.act
  have hfifo := h.fifo
  unfold Act at hact
  unfold step at hs
  cases hpc : s.pc T <;> rw [hpc] at hact hs hfifo <;> simp only [] at hact hs
  case u2 o =>
    obtain ⟨rfl, ho⟩ := hact
    by_cases hq : s.queue = o
    · rw [if_pos hq] at hs
      injection hs with hs; subst hs
      exact Or.inl ⟨o, rfl, hq, h.release hpc hq rfl rfl rfl rfl rfl⟩
    · rw [if_neg hq] at hs
      injection hs with hs; subst hs
      refine Or.inr (Or.inr ⟨fun o' ho' => ?_, fun p n hh => (by cases hh), ?_⟩)
      · injection ho' with ho'; subst ho'; exact hq
      refine h.act_step rfl rfl (fun u hu => upd_ne _ _ hu) ?_ ?_
      · unfold Act
        simp only [St.goto, upd_same]
        refine ⟨trivial, ho, ?_⟩
        have := h.chain
        cases W with
        | nil => exact absurd this hq
        | cons b W => rw [this.1]; simp
      · simpa only [St.goto, upd_same, entered] using hfifo
  case u5 p n =>
    injection hs with hs; subst hs
    exact Or.inr (Or.inl ⟨p, n, rfl, h.handoff hpc rfl rfl rfl rfl rfl rfl⟩)
  all_goals refine Or.inr (Or.inr ⟨fun o hh => (by cases hh), fun p n hh => (by cases hh), ?_⟩)
  case t1 b =>
    injection hs with hs; subst hs
    refine h.act_step rfl rfl (fun u hu => upd_ne _ _ hu) ?_ ?_
    · unfold Act; simp only [upd_same]; exact hact.1
    · simp only [upd_same]; rw [hfifo]; simp [entered]
  case s3 b =>
    injection hs with hs; subst hs
    refine h.act_step rfl rfl (fun u hu => upd_ne _ _ hu) ?_ ?_
    · unfold Act; simp only [upd_same]; exact hact.1
    · simp only [upd_same]; rw [hfifo]; simp [entered]
  case w b =>
    obtain ⟨rfl, ho⟩ := hact
    rw [if_pos ho] at hs
    injection hs with hs; subst hs
    refine h.act_step rfl rfl (fun u hu => upd_ne _ _ hu) ?_ ?_
    · unfold Act; simp only [upd_same]; exact ho
    · simp only [upd_same]; rw [hfifo]; simp [entered]
  case h b =>
    split at hs
    · injection hs with hs; subst hs
      refine h.act_step rfl rfl (fun u hu => upd_ne _ _ hu) ?_ ?_
      · unfold Act; simp only [upd_same]; exact ⟨hact.1, hact.2.1⟩
      · simp only [upd_same]; rw [hfifo]; simp [entered]
    · cases hs
  case hold =>
    cases op with
    | unlock =>
      injection hs with hs; subst hs
      refine h.act_step rfl rfl (fun u hu => upd_ne _ _ hu) ?_ ?_
      · unfold Act; simp only [St.goto, upd_same]; exact hact
      · simpa only [St.goto, upd_same, entered] using hfifo
    | give b => exact absurd hok id
    | _ => cases hs
  case u0 =>
    injection hs with hs; subst hs
    refine h.act_step rfl rfl (fun u hu => upd_ne _ _ hu) ?_ ?_
    · unfold Act; simp only [St.goto, upd_same]; exact ⟨hact, hact⟩
    · simpa only [St.goto, upd_same, entered] using hfifo
  case u1 o =>
    injection hs with hs; subst hs
    refine h.act_step rfl rfl (fun u hu => upd_ne _ _ hu) ?_ ?_
    · unfold Act; simp only [upd_same]; exact ⟨hact.1, trivial⟩
    · simpa only [upd_same, entered] using hfifo
  case u3 o p =>
    obtain ⟨rfl, ho, hp⟩ := hact
    have hwalk := h.chain.walk hp
    split at hs
    · next heq =>
      injection hs with hs; subst hs
      refine h.act_step rfl rfl (fun u hu => upd_ne _ _ hu) ?_ ?_
      · unfold Act; simp only [St.goto, upd_same]
        refine ⟨ho, ?_⟩
        rcases hwalk with hh | hh
        · exact hh.1
        · rw [heq] at hh
          exact absurd h.mark (h.wait _ hh).2.1
      · simpa only [St.goto, upd_same, entered] using hfifo
    · next hne =>
      injection hs with hs; subst hs
      refine h.act_step rfl rfl (fun u hu => upd_ne _ _ hu) ?_ ?_
      · unfold Act; simp only [St.goto, upd_same]
        refine ⟨trivial, ho, ?_⟩
        rcases hwalk with hh | hh
        · exact absurd hh.2 hne
        · exact hh
      · simpa only [St.goto, upd_same, entered] using hfifo
  case u4 p =>
    injection hs with hs; subst hs
    refine h.act_step rfl rfl (fun u hu => upd_ne _ _ hu) ?_ ?_
    · unfold Act; simp only [St.goto, upd_same]; exact ⟨hact.1, hact.2, trivial⟩
    · simpa only [St.goto, upd_same, entered] using hfifo

/-- Program counter after a step keeps the prepared slots in order. -/
theorem Common.step {thr s s' t op a} (h : Common thr s) (hs : step thr s t op a = some s') :
    Common thr s' := by
  unfold FastLock.step at hs
  cases hpc : s.pc t <;> rw [hpc] at hs <;> simp only [] at hs
  case idle =>
    cases op <;> simp only [Option.some.injEq, reduceCtorEq] at hs <;> subst hs <;>
      exact h.goto rfl rfl (fun a hh => by simp [prep] at hh) (fun y a tmp hh => by cases hh)
  case l0 =>
    split at hs <;> injection hs with hs <;> subst hs <;>
      exact h.goto rfl rfl (fun a hh => by simp [prep] at hh) (fun y a tmp hh => by cases hh)
  case t0 =>
    split at hs
    · next hg =>
      injection hs with hs; subst hs
      unfold St.tryCas
      split <;> exact h.write hg.2 hg.1 rfl rfl (fun b hh => by simp [prep] at hh)
        (fun y b tmp hh => by cases hh)
    · cases hs
  case y0 =>
    split at hs
    · next hg =>
      injection hs with hs; subst hs
      unfold St.tryCas
      split <;> exact h.write hg.2 hg.1 rfl rfl (fun b hh => by simp [prep] at hh)
        (fun y b tmp hh => by cases hh)
    · cases hs
  case s0 y =>
    split at hs
    · next hg =>
      injection hs with hs; subst hs
      refine h.goto rfl rfl (fun b hh => ?_) (fun y a tmp hh => by cases hh)
      simp [prep] at hh; subst hh; exact ⟨hg.2, hg.1⟩
    · cases hs
  case s1 y b tmp =>
    injection hs with hs; subst hs
    have := h.slots t b (by rw [hpc]; rfl)
    refine h.write this.1 this.2 rfl rfl (fun c hh => ?_) (fun y c tmp' hh => ?_)
    · simp [prep] at hh; exact hh.symm
    · injection hh with _ h1 h2; exact ⟨h1.symm, h2.symm⟩
  case s2 y b tmp =>
    injection hs with hs; subst hs
    have := h.slots t b (by rw [hpc]; rfl)
    unfold St.pushCas
    split
    · refine h.goto rfl rfl (fun c hh => ?_) (fun y c tmp' hh => ?_)
      · revert hh; split <;> (try split) <;> simp [prep]
      · revert hh; split <;> (try split) <;> simp
    · refine h.goto rfl rfl (fun c hh => ?_) (fun y c tmp' hh => by cases hh)
      simp [prep] at hh; subst hh; exact this
  case hold =>
    cases op <;> simp only [reduceCtorEq] at hs
    · injection hs with hs; subst hs
      exact h.goto rfl rfl (fun a hh => by simp [prep] at hh) (fun y a tmp hh => by cases hh)
    · split at hs
      · injection hs with hs; subst hs
        refine Common.goto (h.goto (s' := s.goto t .idle) rfl rfl (fun a hh => by simp [prep] at hh)
          (fun y a tmp hh => by cases hh)) rfl rfl (fun a hh => by simp [prep] at hh)
          (fun y a tmp hh => by cases hh)
      · cases hs
  all_goals
    first
    | (injection hs with hs; subst hs
       exact h.goto rfl rfl (fun a hh => by simp [prep] at hh) (fun y a tmp hh => by cases hh))
    | (split at hs <;> first
        | cases hs; done
        | (injection hs with hs; subst hs
           exact h.goto rfl rfl (fun a hh => by simp [prep] at hh) (fun y a tmp hh => by cases hh)))

theorem u6_kept {s s' : St} {t T} (htok : s'.token T = s.token T)
    (hp : ∀ u, u ≠ t → s'.pc u = s.pc u) (hn : ∀ n, s.pc t ≠ .u6 n) :
    (s.token T = true ∨ ∃ u, s.pc u = .u6 T) → (s'.token T = true ∨ ∃ u, s'.pc u = .u6 T) := by
  rintro (h | ⟨u, hu⟩)
  · exact Or.inl (by rw [htok]; exact h)
  · refine Or.inr ⟨u, ?_⟩
    rw [hp u (fun hh => by subst hh; exact hn _ hu)]; exact hu

/-- Steps of a thread which is neither active nor waiting, while the lock is taken. -/
theorem Locked.other {thr s s' T e W t op a} (h : Locked thr s T e W) (hc : Common thr s)
    (hok : Ordinary op) (hpass : passive (s.pc t) = true) (hs : step thr s t op a = some s') :
    ∃ W', Locked thr s' T e W' := by
  have hT : T ≠ t := fun hh => by
    have := h.T_not_passive
    rw [hh, hpass] at this; cases this
  have hq := h.queue_ne
  unfold step at hs
  cases hpc : s.pc t <;> rw [hpc] at hs hpass <;> simp only [] at hs <;>
    try (simp [passive] at hpass; done)
  case idle =>
    cases op <;> simp only [Option.some.injEq, reduceCtorEq] at hs
    · subst hs
      exact ⟨W, h.frame (t := t) rfl rfl rfl rfl (fun _ _ => rfl) (fun u hu => upd_ne _ _ hu)
        (by rw [hpc]; rfl) (by simp [St.goto, upd_same, passive])
        (u6_kept rfl (fun u hu => upd_ne _ _ hu) (by simp [hpc]))⟩
    · subst hs
      exact ⟨W, h.frame (t := t) rfl rfl rfl rfl (fun _ _ => rfl) (fun u hu => upd_ne _ _ hu)
        (by rw [hpc]; rfl) (by simp [St.goto, upd_same, passive])
        (u6_kept rfl (fun u hu => upd_ne _ _ hu) (by simp [hpc]))⟩
    · exact absurd hok id
  case l0 =>
    rw [if_pos hq] at hs
    injection hs with hs; subst hs
    exact ⟨W, h.frame (t := t) rfl rfl rfl rfl (fun _ _ => rfl) (fun u hu => upd_ne _ _ hu)
      (by rw [hpc]; rfl) (by simp [St.goto, upd_same, passive])
      (u6_kept rfl (fun u hu => upd_ne _ _ hu) (by simp [hpc]))⟩
  case t0 =>
    split at hs
    · next hg =>
      injection hs with hs; subst hs
      unfold St.tryCas
      rw [if_neg hq]
      have hna := h.own_slot (t := t) (by rw [hpc]; rfl) hg.2
      exact ⟨W, h.frame (t := t) rfl rfl rfl rfl
        (fun b m => upd_ne _ _ (fun hh => hna (hh ▸ m))) (fun u hu => upd_ne _ _ hu)
        (by rw [hpc]; rfl) (by simp [upd_same, passive])
        (u6_kept rfl (fun u hu => upd_ne _ _ hu) (by simp [hpc]))⟩
    · cases hs
  case y0 =>
    split at hs
    · next hg =>
      injection hs with hs; subst hs
      unfold St.tryCas
      rw [if_neg hq]
      have hna := h.own_slot (t := t) (by rw [hpc]; rfl) hg.2
      exact ⟨W, h.frame (t := t) rfl rfl rfl rfl
        (fun b m => upd_ne _ _ (fun hh => hna (hh ▸ m))) (fun u hu => upd_ne _ _ hu)
        (by rw [hpc]; rfl) (by simp [upd_same, passive])
        (u6_kept rfl (fun u hu => upd_ne _ _ hu) (by simp [hpc]))⟩
    · cases hs
  case s0 y =>
    cases y <;> try (simp [passive] at hpass; done)
    split at hs
    · injection hs with hs; subst hs
      exact ⟨W, h.frame (t := t) rfl rfl rfl rfl (fun _ _ => rfl) (fun u hu => upd_ne _ _ hu)
        (by rw [hpc]; rfl) (by simp [St.goto, upd_same, passive])
        (u6_kept rfl (fun u hu => upd_ne _ _ hu) (by simp [hpc]))⟩
    · cases hs
  case s1 y b tmp =>
    cases y <;> try (simp [passive] at hpass; done)
    injection hs with hs; subst hs
    have hna := h.own_slot (t := t) (by rw [hpc]; rfl) (hc.slots t b (by rw [hpc]; rfl)).1
    exact ⟨W, h.frame (t := t) rfl rfl rfl rfl
      (fun c m => upd_ne _ _ (fun hh => hna (hh ▸ m))) (fun u hu => upd_ne _ _ hu)
      (by rw [hpc]; rfl) (by simp [upd_same, passive])
      (u6_kept rfl (fun u hu => upd_ne _ _ hu) (by simp [hpc]))⟩
  case s2 y b tmp =>
    cases y <;> try (simp [passive] at hpass; done)
    injection hs with hs; subst hs
    have hsl := hc.slots t b (by rw [hpc]; rfl)
    unfold St.pushCas
    by_cases hqt : s.queue = tmp
    · rw [if_pos hqt]
      have h0 : tmp ≠ 0 := hqt ▸ hq
      refine ⟨b :: W, h.push (t := t) (by rw [hpc]; rfl) hsl.1 hsl.2 ?_ rfl rfl rfl rfl rfl
        (by simp [h0]) (by simp [hpc]) rfl⟩
      rw [hqt]; exact hc.nexts t _ b tmp hpc
    · rw [if_neg hqt]
      exact ⟨W, h.frame (t := t) rfl rfl rfl rfl (fun _ _ => rfl) (fun u hu => upd_ne _ _ hu)
        (by rw [hpc]; rfl) (by simp [St.goto, upd_same, passive])
        (u6_kept rfl (fun u hu => upd_ne _ _ hu) (by simp [hpc]))⟩
  case u6 n =>
    injection hs with hs; subst hs
    refine ⟨W, h.frame (t := t) rfl rfl rfl rfl (fun _ _ => rfl) (fun u hu => upd_ne _ _ hu)
      (by rw [hpc]; rfl) (by simp [upd_same, passive]) ?_⟩
    rintro (hh | ⟨u, hu⟩)
    · left
      show upd s.token n true T = true
      unfold upd; split
      · rfl
      · exact hh
    · by_cases hut : u = t
      · subst hut
        rw [hpc] at hu
        injection hu with hu
        left
        show upd s.token n true T = true
        rw [hu, upd_same]
      · right; exact ⟨u, by show upd s.pc t .idle u = _; rw [upd_ne _ _ hut]; exact hu⟩

/-- Steps of a waiting thread which was not elected. -/
theorem Locked.waiter {thr s s' T e W t op a} (h : Locked thr s T e W) (hT : t ≠ T)
    (hw : ∃ b ∈ W, thr b = t) (hs : step thr s t op a = some s') : Locked thr s' T e W := by
  obtain ⟨b, hb, rfl⟩ := hw
  have hwb := h.wait b hb
  have hob : s.owner ≠ b := fun hh => by
    have := h.act
    unfold Act at this
    have hbe : b ≠ e := fun h2 => hwb.2.1 (by rw [h2]; exact h.mark)
    have hb0 := hwb.2.2
    rw [hh] at this
    split at this <;> simp_all
  unfold step at hs
  have h1 := hwb.1
  cases hpc : s.pc (thr b) <;> rw [hpc] at hs h1 <;> simp only [waits, reduceCtorEq] at h1
  case w c =>
    injection h1 with h1; subst h1
    simp only [] at hs
    rw [if_neg hob] at hs
    injection hs with hs; subst hs
    exact h.wait_step (t := thr c) (a := c) rfl rfl rfl rfl rfl (fun u hu => upd_ne _ _ hu) hT
      (by rw [hpc]; rfl) (by simp [St.goto, upd_same, waits]) rfl
  case h c =>
    injection h1 with h1; subst h1
    simp only [] at hs
    split at hs
    · injection hs with hs; subst hs
      exact h.wait_step (t := thr c) (a := c) rfl rfl rfl rfl rfl (fun u hu => upd_ne _ _ hu) hT
        (by rw [hpc]; rfl) (by simp [upd_same, waits]) (upd_ne _ _ (Ne.symm hT))
    · cases hs

theorem Free.keep {s s' t p} (f : Free s) (hq : s'.queue = s.queue) (ho : s'.owner = s.owner)
    (ha : s'.arrivals = s.arrivals) (hac : s'.acquired = s.acquired) (hp : s'.pc = upd s.pc t p)
    (hpp : passive p = true) : Free s' where
  queue := by rw [hq, f.queue]
  owner := by rw [ho, f.owner]
  others u := by
    rw [hp]
    by_cases hu : u = t
    · subst hu; rw [upd_same]; exact hpp
    · rw [upd_ne _ _ hu]; exact f.others u
  fifo := by rw [ha, hac, f.fifo]

/-- Steps while the lock is free. -/
theorem Free.step {thr s s' t op a} (f : Free s) (hc : Common thr s)
    (hok : Ordinary op) (hs : step thr s t op a = some s') :
    Free s' ∨ ∃ T e W, Locked thr s' T e W := by
  have hpass := f.others t
  have hq := f.queue
  unfold FastLock.step at hs
  cases hpc : s.pc t <;> rw [hpc] at hs hpass <;> simp only [] at hs <;>
    try (simp [passive] at hpass; done)
  case idle =>
    cases op <;> simp only [Option.some.injEq, reduceCtorEq] at hs
    · subst hs; exact Or.inl (f.keep rfl rfl rfl rfl rfl rfl)
    · subst hs; exact Or.inl (f.keep rfl rfl rfl rfl rfl rfl)
    · exact absurd hok id
  case l0 =>
    rw [if_neg (by simp [hq])] at hs
    injection hs with hs; subst hs
    exact Or.inl (f.keep rfl rfl rfl rfl rfl rfl)
  case t0 =>
    split at hs
    · next hg =>
      injection hs with hs; subst hs
      unfold St.tryCas
      rw [if_pos hq]
      exact Or.inr ⟨t, a, [], f.take hg.2 hg.1 rfl rfl rfl rfl rfl (Or.inl rfl)⟩
    · cases hs
  case y0 =>
    split at hs
    · next hg =>
      injection hs with hs; subst hs
      unfold St.tryCas
      rw [if_pos hq]
      exact Or.inr ⟨t, a, [], f.take hg.2 hg.1 rfl rfl rfl rfl rfl (Or.inl rfl)⟩
    · cases hs
  case s0 y =>
    cases y <;> try (simp [passive] at hpass; done)
    split at hs
    · injection hs with hs; subst hs
      exact Or.inl (f.keep rfl rfl rfl rfl rfl rfl)
    · cases hs
  case s1 y b tmp =>
    cases y <;> try (simp [passive] at hpass; done)
    injection hs with hs; subst hs
    exact Or.inl (f.keep rfl rfl rfl rfl rfl rfl)
  case s2 y b tmp =>
    cases y <;> try (simp [passive] at hpass; done)
    injection hs with hs; subst hs
    have hsl := hc.slots t b (by rw [hpc]; rfl)
    unfold St.pushCas
    by_cases hqt : s.queue = tmp
    · rw [if_pos hqt]
      have h0 : tmp = 0 := hqt ▸ hq
      exact Or.inr ⟨t, b, [], f.take hsl.1 hsl.2 rfl rfl rfl rfl rfl (Or.inr (by simp [h0]))⟩
    · rw [if_neg hqt]
      exact Or.inl (f.keep rfl rfl rfl rfl rfl rfl)
  case u6 n =>
    injection hs with hs; subst hs
    exact Or.inl (f.keep rfl rfl rfl rfl rfl rfl)

theorem Inv.step {thr s s' t op a} (h : Inv thr s) (hok : Ordinary op)
    (hs : step thr s t op a = some s') : Inv thr s' := by
  obtain ⟨hc, h⟩ := h
  refine ⟨hc.step hs, ?_⟩
  rcases h with f | ⟨T, e, W, l⟩
  · exact f.step hc hok hs
  · by_cases hT : t = T
    · subst hT
      rcases l.active hok hs with ⟨_, _, _, f⟩ | ⟨p, _, _, l⟩ | ⟨_, _, l⟩
      · exact Or.inl f
      · exact Or.inr ⟨_, _, _, l⟩
      · exact Or.inr ⟨_, _, _, l⟩
    · rcases l.others t hT with hp | hw
      · obtain ⟨W', l⟩ := l.other hc hok hp hs
        exact Or.inr ⟨T, e, W', l⟩
      · exact Or.inr ⟨T, e, W, l.waiter hT hw hs⟩

theorem Reach.inv {thr s} (h : Reach thr Ordinary s) : Inv thr s := by
  induction h with
  | init => exact Inv.init thr
  | step _ hok hs ih => exact ih.step hok hs
  | wake _ ih => exact ih.wake

/-! ## C29: mutual exclusion -/

/-- C29: at no time two threads are inside of the section guarded by the lock, whatever the
number of threads, the schedule, the addresses of the slots and the spurious wake-ups. -/
theorem c29_mutual_exclusion {thr s t u} (h : Reach thr Ordinary s) (ht : s.pc t = .hold)
    (hu : s.pc u = .hold) : t = u := by
  rcases h.inv.2 with f | ⟨T, e, W, l⟩
  · have := f.others t; rw [ht] at this; cases this
  · rw [l.eq_T (t := t) (by rw [ht]; rfl) (by rw [ht]; rfl),
      l.eq_T (t := u) (by rw [hu]; rfl) (by rw [hu]; rfl)]

/-- C29: `tryLock` by another thread fails while the lock is held. -/
theorem c29_trylock_fails {thr s s' t u a op} (h : Reach thr Ordinary s) (ht : s.pc t = .hold)
    (hu : s.pc u = .y0) (hs : step thr s u op a = some s') : s'.pc u = .idle := by
  rcases h.inv.2 with f | ⟨T, e, W, l⟩
  · have := f.others t; rw [ht] at this; cases this
  · unfold step at hs
    rw [hu] at hs
    simp only [] at hs
    split at hs
    · injection hs with hs; subst hs
      unfold St.tryCas
      rw [if_neg l.queue_ne]
      exact upd_same _ _ _
    · cases hs

/-- C29: the slots which `unlock` reads belong to threads which wait with them, so they exist. -/
theorem c29_unlock_reads_live {thr s t p} (h : Reach thr Ordinary s)
    (ht : (∃ o, s.pc t = .u3 o p) ∨ s.pc t = .u4 p ∨ ∃ n, s.pc t = .u5 p n) :
    p ≠ 0 ∧ thr p ≠ t ∧ (s.pc (thr p) = .w p ∨ s.pc (thr p) = .h p) := by
  have key : ∀ T e W, Locked thr s T e W → t = T → p ∈ W →
      p ≠ 0 ∧ thr p ≠ t ∧ (s.pc (thr p) = .w p ∨ s.pc (thr p) = .h p) := by
    intro T e W l hT hp
    obtain ⟨x, y, z⟩ := l.wait p hp
    refine ⟨z, by rw [hT]; exact y, ?_⟩
    revert x
    cases s.pc (thr p) <;> simp [waits]
  rcases h.inv.2 with f | ⟨T, e, W, l⟩
  · have := f.others t
    rcases ht with ⟨o, ht⟩ | ht | ⟨n, ht⟩ <;> rw [ht] at this <;> cases this
  · rcases ht with ⟨o, ht⟩ | ht | ⟨n, ht⟩
    · have hT := l.eq_T (t := t) (by rw [ht]; rfl) (by rw [ht]; rfl)
      refine key T e W l hT ?_
      have := l.act
      unfold Act at this
      rw [← hT, ht] at this
      exact this.2.2
    · have hT := l.eq_T (t := t) (by rw [ht]; rfl) (by rw [ht]; rfl)
      refine key T e W l hT ?_
      have := l.act
      unfold Act at this
      rw [← hT, ht] at this
      exact List.mem_of_getLast? this.2
    · have hT := l.eq_T (t := t) (by rw [ht]; rfl) (by rw [ht]; rfl)
      refine key T e W l hT ?_
      have := l.act
      unfold Act at this
      rw [← hT, ht] at this
      exact List.mem_of_getLast? this.2.1

/-! ## C30: order and progress -/

/-- C30: the lock is acquired in the order of the arrivals in the queue. -/
theorem c30_fifo {thr s} (h : Reach thr Ordinary s) : s.acquired <+: s.arrivals := by
  rcases h.inv.2 with f | ⟨T, e, W, l⟩
  · rw [f.fifo]; exact List.prefix_rfl
  · rw [l.fifo, List.append_assoc]; exact List.prefix_append _ _

/-- C30: a halted thread which was elected has its wake-up, or the unlocking thread is about to
deliver it. -/
theorem c30_no_lost_wakeup {thr s t a} (h : Reach thr Ordinary s) (ht : s.pc t = .h a)
    (ho : s.owner = a) : s.token t = true ∨ ∃ u, s.pc u = .u6 t := by
  rcases h.inv.2 with f | ⟨T, e, W, l⟩
  · have := f.others t; rw [ht] at this; cases this
  · have hact := l.act
    unfold Act at hact
    by_cases hT : t = T
    · subst hT; rw [ht] at hact; exact hact.2.2
    · exfalso
      rcases l.others t hT with hp | ⟨b, hb, rfl⟩
      · rw [ht] at hp; cases hp
      · have hw := l.wait b hb
        rw [ht] at hw
        have hab : a = b := by simpa [waits] using hw.1
        subst hab
        have hbe : a ≠ e := fun h2 => hw.2.1 (by rw [h2]; exact l.mark)
        have hb0 := hw.2.2
        rw [ho] at hact
        split at hact <;> simp_all

theorem Run.trans {thr ok s s' s''} (h : Run thr ok s s') (h' : Run thr ok s' s'') :
    Run thr ok s s'' := by
  induction h with
  | refl => exact h'
  | step a b _ ih => exact .step a b (ih h')

theorem Run.one {thr : Nat → Nat} {ok : Op → Prop} {s s' : St} {t op a} (h : ok op)
    (hs : FastLock.step thr s t op a = some s') : Run thr ok s s' := .step h hs .refl

theorem Chain.next_of {n : Nat → Nat} {q V p V' e} (hc : Chain n q (V ++ p :: V') e) :
    Chain n (n p) V' e := by
  induction V generalizing q with
  | nil => exact hc.2
  | cons a V ih => exact ih hc.2

/-- The active thread continues. -/
theorem Locked.run1 {thr s s' T e W op} (l : Locked thr s T e W) (hok : Ordinary op)
    (hs : step thr s T op 0 = some s') (h2 : ∀ o, s.pc T = .u2 o → s.queue ≠ o)
    (h5 : ∀ p n, s.pc T ≠ .u5 p n) : Run thr Ordinary s s' ∧ Locked thr s' T e W := by
  refine ⟨.one hok hs, ?_⟩
  rcases l.active hok hs with ⟨o, h, hq, _⟩ | ⟨p, n, h, _⟩ | ⟨_, _, l⟩
  · exact absurd hq (h2 o h)
  · exact absurd h (h5 p n)
  · exact l

/-- A thread which was elected comes to own the lock. -/
theorem Locked.enter {thr s T e W} (l : Locked thr s T e W) (hn : entered (s.pc T) = false) :
    ∃ s', Run thr Ordinary s s' ∧ s'.pc T = .hold ∧ Locked thr s' T e W := by
  have one : ∀ {s : St}, Locked thr s T e W → entered (s.pc T) = false → (∀ a, s.pc T ≠ .h a) →
      ∃ s', Run thr Ordinary s s' ∧ s'.pc T = .hold ∧ Locked thr s' T e W := by
    intro s l hn hh
    have hact := l.act
    unfold Act at hact
    cases hpc : s.pc T <;> rw [hpc] at hn hact <;>
      simp only [entered, Bool.true_eq_false] at hn
    case t1 a =>
      obtain ⟨r, l'⟩ := l.run1 (op := .lock) trivial
        (by unfold step; rw [hpc]) (by simp [hpc]) (by simp [hpc])
      exact ⟨_, r, upd_same _ _ _, l'⟩
    case s3 a =>
      obtain ⟨r, l'⟩ := l.run1 (op := .lock) trivial
        (by unfold step; rw [hpc]) (by simp [hpc]) (by simp [hpc])
      exact ⟨_, r, upd_same _ _ _, l'⟩
    case w a =>
      obtain ⟨rfl, ho⟩ := hact
      obtain ⟨r, l'⟩ := l.run1 (op := .lock) trivial
        (by unfold step; rw [hpc]; simp only []; rw [if_pos ho]) (by simp [hpc]) (by simp [hpc])
      exact ⟨_, r, upd_same _ _ _, l'⟩
    case h a => exact absurd hpc (hh a)
  have tok : ∀ {s : St} {a}, Locked thr s T e W → s.pc T = .h a → s.token T = true →
      ∃ s', Run thr Ordinary s s' ∧ s'.pc T = .hold ∧ Locked thr s' T e W := by
    intro s a l hpc ht
    obtain ⟨r, l'⟩ := l.run1 (op := .lock) trivial
      (by unfold step; rw [hpc]; simp only []; rw [if_pos ht]) (by simp [hpc]) (by simp [hpc])
    obtain ⟨s', r', h1, h2⟩ := one l' (by simp only [upd_same]; rfl)
      (by intro b; simp only [upd_same]; simp)
    exact ⟨s', r.trans r', h1, h2⟩
  by_cases hh : ∃ a, s.pc T = .h a
  · obtain ⟨a, hh⟩ := hh
    have hact := l.act
    unfold Act at hact
    rw [hh] at hact
    rcases hact.2.2 with ht | ⟨u, hu⟩
    · exact tok l hh ht
    · have huT : u ≠ T := fun h2 => by subst h2; rw [hu] at hh; cases hh
      have hs : step thr s u .lock 0 =
          some { s with token := upd s.token T true, pc := upd s.pc u .idle } := by
        unfold step; rw [hu]
      have l' : Locked thr { s with token := upd s.token T true, pc := upd s.pc u .idle } T e W :=
        l.frame (t := u) rfl rfl rfl rfl (fun _ _ => rfl) (fun v hv => upd_ne _ _ hv)
          (by rw [hu]; rfl) (by simp [upd_same, passive]) (fun _ => Or.inl (upd_same _ _ _))
      obtain ⟨s', r', h1, h2⟩ := tok l' (a := a)
        (by show upd s.pc u .idle T = _; rw [upd_ne _ _ (Ne.symm huT)]; exact hh) (upd_same _ _ _)
      exact ⟨s', .step (op := .lock) trivial hs r', h1, h2⟩
  · exact one l hn (fun a h2 => hh ⟨a, h2⟩)

/-- The owner lets the oldest waiter in. -/
theorem Locked.pass_on {thr s T e V p} (l : Locked thr s T e (V ++ [p]))
    (hn : entered (s.pc T) = true) :
    ∃ s', Run thr Ordinary s s' ∧ waits (s'.pc (thr p)) = some p ∧ Locked thr s' (thr p) p V := by
  have c5 : ∀ {s : St} {q n}, Locked thr s T e (V ++ [p]) → s.pc T = .u5 q n →
      ∃ s', Run thr Ordinary s s' ∧ waits (s'.pc (thr p)) = some p ∧ Locked thr s' (thr p) p V := by
    intro s q n l hpc
    have hact := l.act
    unfold Act at hact
    rw [hpc] at hact
    have hq : q = p := by simpa using hact.2.1.symm
    subst hq
    have hs : step thr s T .lock 0 = some { s with owner := q, pc := upd s.pc T (.u6 n) } := by
      unfold step; rw [hpc]
    refine ⟨_, .one (op := .lock) trivial hs, ?_, ?_⟩
    · show waits (upd s.pc T (.u6 n) (thr q)) = some q
      rw [upd_ne _ _ (l.wait q (by simp)).2.1]
      exact (l.wait q (by simp)).1
    · have := l.handoff (s' := { s with owner := q, pc := upd s.pc T (.u6 n) }) hpc
        rfl rfl rfl rfl rfl rfl
      rwa [List.dropLast_concat] at this
  have c4 : ∀ {s : St} {q}, Locked thr s T e (V ++ [p]) → s.pc T = .u4 q →
      ∃ s', Run thr Ordinary s s' ∧ waits (s'.pc (thr p)) = some p ∧ Locked thr s' (thr p) p V := by
    intro s q l hpc
    obtain ⟨r, l'⟩ := l.run1 (op := .lock) trivial
      (by unfold step; rw [hpc]) (by simp [hpc]) (by simp [hpc])
    obtain ⟨s', r', h⟩ := c5 l' (upd_same _ _ _)
    exact ⟨s', r.trans r', h⟩
  have c3 : ∀ (B A : List Nat) {s : St} {o q}, V ++ [p] = A ++ q :: B →
      Locked thr s T e (V ++ [p]) → s.pc T = .u3 o q →
      ∃ s', Run thr Ordinary s s' ∧ waits (s'.pc (thr p)) = some p ∧ Locked thr s' (thr p) p V := by
    intro B
    induction B with
    | nil =>
      intro A s o q hsplit l hpc
      have hact := l.act
      unfold Act at hact
      rw [hpc] at hact
      have hch := l.chain
      rw [hsplit] at hch
      have hne : s.next q = o := by rw [hact.1]; exact hch.next_of
      obtain ⟨r, l'⟩ := l.run1 (op := .lock) trivial
        (by unfold step; rw [hpc]; simp only []; rw [if_pos hne]) (by simp [hpc]) (by simp [hpc])
      obtain ⟨s', r', h⟩ := c4 l' (upd_same _ _ _)
      exact ⟨s', r.trans r', h⟩
    | cons b B ih =>
      intro A s o q hsplit l hpc
      have hact := l.act
      unfold Act at hact
      rw [hpc] at hact
      have hch := l.chain
      rw [hsplit] at hch
      have hnb : s.next q = b := hch.next_of.1
      have hne : s.next q ≠ o := by
        rw [hnb, hact.1]
        intro hh
        have hw := (l.wait b (by rw [hsplit]; simp)).2.1
        rw [hh, l.mark] at hw
        exact hw rfl
      obtain ⟨r, l'⟩ := l.run1 (op := .lock) trivial
        (by unfold step; rw [hpc]; simp only []; rw [if_neg hne]) (by simp [hpc]) (by simp [hpc])
      obtain ⟨s', r', h⟩ := ih (A ++ [q]) (q := b) (o := o) (by rw [hsplit]; simp) l'
        (by simp only [St.goto, upd_same]; rw [hnb])
      exact ⟨s', r.trans r', h⟩
  have c2 : ∀ {s : St} {o}, Locked thr s T e (V ++ [p]) → s.pc T = .u2 o →
      ∃ s', Run thr Ordinary s s' ∧ waits (s'.pc (thr p)) = some p ∧ Locked thr s' (thr p) p V := by
    intro s o l hpc
    have hact := l.act
    unfold Act at hact
    rw [hpc] at hact
    obtain ⟨b, B, hB⟩ : ∃ b B, V ++ [p] = b :: B := by cases V <;> simp
    have hch := l.chain
    rw [hB] at hch
    have hq : s.queue ≠ o := by
      rw [hch.1, hact.1]
      intro hh
      have hw := (l.wait b (by rw [hB]; simp)).2.1
      rw [hh, l.mark] at hw
      exact hw rfl
    obtain ⟨r, l'⟩ := l.run1 (op := .lock) trivial
      (by unfold step; rw [hpc]; simp only []; rw [if_neg hq])
      (by intro o' h; rw [hpc] at h; injection h with h; rw [← h]; exact hq) (by simp [hpc])
    obtain ⟨s', r', h⟩ := c3 B [] (q := b) (o := o) (by rw [hB]; rfl) l'
      (by simp only [St.goto, upd_same]; rw [hch.1])
    exact ⟨s', r.trans r', h⟩
  have c1 : ∀ {s : St} {o}, Locked thr s T e (V ++ [p]) → s.pc T = .u1 o →
      ∃ s', Run thr Ordinary s s' ∧ waits (s'.pc (thr p)) = some p ∧ Locked thr s' (thr p) p V := by
    intro s o l hpc
    obtain ⟨r, l'⟩ := l.run1 (op := .lock) trivial
      (by unfold step; rw [hpc]) (by simp [hpc]) (by simp [hpc])
    obtain ⟨s', r', h⟩ := c2 l' (upd_same _ _ _)
    exact ⟨s', r.trans r', h⟩
  have c0 : ∀ {s : St}, Locked thr s T e (V ++ [p]) → s.pc T = .u0 →
      ∃ s', Run thr Ordinary s s' ∧ waits (s'.pc (thr p)) = some p ∧ Locked thr s' (thr p) p V := by
    intro s l hpc
    obtain ⟨r, l'⟩ := l.run1 (op := .lock) trivial
      (by unfold step; rw [hpc]) (by simp [hpc]) (by simp [hpc])
    obtain ⟨s', r', h⟩ := c1 l' (upd_same _ _ _)
    exact ⟨s', r.trans r', h⟩
  have hact := l.act
  unfold Act at hact
  cases hpc : s.pc T <;> rw [hpc] at hn hact <;> simp only [entered, Bool.false_eq_true] at hn <;>
    simp only [] at hact
  case hold =>
    obtain ⟨r, l'⟩ := l.run1 (op := .unlock) trivial
      (by unfold step; rw [hpc]) (by simp [hpc]) (by simp [hpc])
    obtain ⟨s', r', h⟩ := c0 l' (upd_same _ _ _)
    exact ⟨s', r.trans r', h⟩
  case u0 => exact c0 l hpc
  case u1 => exact c1 l hpc
  case u2 => exact c2 l hpc
  case u3 o q =>
    obtain ⟨A, B, hAB⟩ := List.append_of_mem hact.2.2
    exact c3 B A hAB l hpc
  case u4 => exact c4 l hpc
  case u5 => exact c5 l hpc

theorem Locked.serve {thr t} : ∀ (n : Nat) {s T e W}, W.length = n → Locked thr s T e W →
    (∃ a ∈ W, thr a = t) → ∃ s', Run thr Ordinary s s' ∧ s'.pc t = .hold := by
  intro n
  induction n with
  | zero =>
    intro s T e W hlen _ ⟨a, ha, _⟩
    rw [List.length_eq_zero_iff.1 hlen] at ha; simp at ha
  | succ n ih =>
    intro s T e W hlen l ⟨a, ha, hat⟩
    have hne : W ≠ [] := fun hh => by rw [hh] at hlen; simp at hlen
    obtain ⟨V, p, rfl⟩ : ∃ V p, W = V ++ [p] := ⟨_, _, (List.dropLast_concat_getLast hne).symm⟩
    obtain ⟨s1, r1, l1, he⟩ : ∃ s', Run thr Ordinary s s' ∧ Locked thr s' T e (V ++ [p]) ∧
        entered (s'.pc T) = true := by
      by_cases he : entered (s.pc T) = true
      · exact ⟨s, .refl, l, he⟩
      · obtain ⟨s', r, h, l'⟩ := l.enter (by simpa using he)
        exact ⟨s', r, l', by rw [h]; rfl⟩
    obtain ⟨s2, r2, hw, l2⟩ := l1.pass_on he
    have hn2 : entered (s2.pc (thr p)) = false := by
      revert hw
      cases s2.pc (thr p) <;> simp [waits, entered]
    rcases List.mem_append.1 ha with ha | ha
    · obtain ⟨s3, r3, h3⟩ := ih (by simpa using hlen) l2 ⟨a, ha, hat⟩
      exact ⟨s3, (r1.trans r2).trans r3, h3⟩
    · simp at ha; subst ha
      obtain ⟨s3, r3, h3, _⟩ := l2.enter hn2
      exact ⟨s3, (r1.trans r2).trans r3, by rw [← hat]; exact h3⟩

/-- C30: no waiter is lost: from every reachable state each waiting thread can still be served, by
steps of the threads that already are in the lock and without further wake-ups from elsewhere. -/
theorem c30_waiter_served {thr s t} (h : Reach thr Ordinary s) (hw : Waiting s t) :
    ∃ s', Run thr Ordinary s s' ∧ s'.pc t = .hold := by
  obtain ⟨a, hw⟩ := hw
  rcases h.inv.2 with f | ⟨T, e, W, l⟩
  · have := f.others t
    rcases hw with hw | hw <;> rw [hw] at this <;> cases this
  · by_cases hT : t = T
    · subst hT
      obtain ⟨s', r, h, _⟩ := l.enter (by rcases hw with hw | hw <;> rw [hw] <;> rfl)
      exact ⟨s', r, h⟩
    · rcases l.others t hT with hp | hp
      · rcases hw with hw | hw <;> rw [hw] at hp <;> cases hp
      · exact l.serve W.length rfl hp

/-! ## Concrete runs -/

/-- Runs a schedule: thread, operation, slot address. -/
def exec (thr : Nat → Nat) : St → List (Nat × Op × Nat) → Option St
  | s, [] => some s
  | s, (t, op, a) :: l => (step thr s t op a).bind fun s' => exec thr s' l

theorem exec_reach {thr ok} : ∀ (l : List (Nat × Op × Nat)) {s s'}, Reach thr ok s →
    (∀ x ∈ l, ok x.2.1) → exec thr s l = some s' → Reach thr ok s'
  | [], _, _, h, _, he => by simp [exec] at he; subst he; exact h
  | (t, op, a) :: l, s, s', h, hok, he => by
    unfold exec at he
    cases hs : step thr s t op a with
    | none => rw [hs] at he; cases he
    | some s1 =>
      rw [hs] at he
      exact exec_reach l (h.step (hok (t, op, a) (by simp)) hs)
        (fun x hx => hok x (by simp [hx])) he

/-- Ten addresses per thread. -/
def stacks (a : Nat) : Nat := a / 10

/-- Threads 1, 2, 3: thread 1 locks, 2 and 3 queue, 1 unlocks (walking over 3's slot to 2's). -/
def demo : List (Nat × Op × Nat) :=
  [(1, .lock, 0), (1, .lock, 0), (1, .lock, 11), (1, .lock, 0),
   (2, .lock, 0), (2, .lock, 0), (2, .lock, 25), (2, .lock, 0), (2, .lock, 0), (2, .lock, 0),
   (3, .lock, 0), (3, .lock, 0), (3, .lock, 33), (3, .lock, 0), (3, .lock, 0),
   (1, .unlock, 0), (1, .lock, 0), (1, .lock, 0), (1, .lock, 0), (1, .lock, 0), (1, .lock, 0),
   (1, .lock, 0), (1, .lock, 0), (1, .lock, 0), (2, .lock, 0), (2, .lock, 0)]

example : (exec stacks {} demo).map (fun s => (s.pc 1, s.pc 2, s.pc 3)) =
    some (.idle, .hold, .w 33) := by decide +kernel
example : (exec stacks {} demo).map (fun s => (s.queue, s.owner)) = some (33, 25) := by
  decide +kernel
example : (exec stacks {} demo).map (fun s => (s.acquired, s.arrivals)) =
    some ([1, 2], [1, 2, 3]) := by decide +kernel

/-! ## Disagreements -/

/-- Use with an `unlock` in another thread, as the comment at fastlock.h:76-80 permits. -/
def WithGive : Op → Prop
  | .async => False
  | _ => True

instance (op : Op) : Decidable (WithGive op) := by cases op <;> unfold WithGive <;> infer_instance

/-- Thread 1 locks (slot 11) and leaves the section to thread 2; thread 1 locks again and the
new slot gets the address 11, which is still the mark of the owner. -/
def reuse : List (Nat × Op × Nat) :=
  [(1, .lock, 0), (1, .lock, 0), (1, .lock, 11), (1, .lock, 0), (1, .give 2, 0),
   (1, .lock, 0), (1, .lock, 0), (1, .lock, 11), (1, .lock, 0), (1, .lock, 0), (1, .lock, 0)]

/-- C68 (negation): mutual exclusion fails when the lock is unlocked by another thread than the one
which locked it, because the address of a slot can come again while it marks the owner. -/
theorem c68_foreign_unlock_violated : ∃ s, Reach stacks WithGive s ∧ s.pc 1 = .hold ∧
    s.pc 2 = .hold := by
  cases h : exec stacks {} reuse with
  | none => exact absurd h (by unfold reuse; decide +kernel)
  | some s =>
    refine ⟨s, exec_reach reuse .init (by decide +kernel) h, ?_, ?_⟩
    · have : (exec stacks {} reuse).map (fun s => s.pc 1) = some .hold := by decide +kernel
      rw [h] at this; simpa using this
    · have : (exec stacks {} reuse).map (fun s => s.pc 2) = some .hold := by decide +kernel
      rw [h] at this; simpa using this

/-- Use with `Async` sections. -/
def WithAsync : Op → Prop
  | .give _ => False
  | _ => True

instance (op : Op) : Decidable (WithAsync op) := by cases op <;> unfold WithAsync <;> infer_instance

/-- Program counters of threads outside of, entering, or waiting. -/
def outside : PC → Prop
  | .idle | .l0 | .t0 | .y0 | .s0 _ => True
  | .s1 _ a _ | .s2 _ a _ | .w a | .h a => a ≠ 0
  | _ => False

/-- The lock is taken, and nobody is its owner. -/
structure Dead (s : St) : Prop where
  queue : s.queue ≠ 0
  owner : s.owner = 0
  pcs : ∀ t, outside (s.pc t)

theorem Dead.keep {s s' t p} (h : Dead s) (hq : s'.queue ≠ 0) (ho : s'.owner = s.owner)
    (hp : s'.pc = upd s.pc t p) (hpp : outside p) : Dead s' where
  queue := hq
  owner := by rw [ho, h.owner]
  pcs u := by
    rw [hp]
    by_cases hu : u = t
    · subst hu; rw [upd_same]; exact hpp
    · rw [upd_ne _ _ hu]; exact h.pcs u

theorem Dead.step {thr s s' t op a} (h : Dead s) (hs : step thr s t op a = some s') : Dead s' := by
  have hq := h.queue
  have ho := h.owner
  have hp := h.pcs t
  unfold FastLock.step at hs
  cases hpc : s.pc t <;> rw [hpc] at hs hp <;> simp only [outside] at hs hp
  case idle =>
    cases op <;> simp only [Option.some.injEq, reduceCtorEq] at hs <;> subst hs <;>
      exact h.keep hq rfl rfl trivial
  case l0 =>
    rw [if_pos hq] at hs
    injection hs with hs; subst hs; exact h.keep hq rfl rfl trivial
  case t0 =>
    split at hs
    · injection hs with hs; subst hs
      unfold St.tryCas; rw [if_neg hq]; exact h.keep hq rfl rfl trivial
    · cases hs
  case y0 =>
    split at hs
    · injection hs with hs; subst hs
      unfold St.tryCas; rw [if_neg hq]; exact h.keep hq rfl rfl trivial
    · cases hs
  case s0 =>
    split at hs
    · next hg => injection hs with hs; subst hs; exact h.keep hq rfl rfl hg.1
    · cases hs
  case s1 => injection hs with hs; subst hs; exact h.keep hq rfl rfl hp
  case s2 y b tmp =>
    injection hs with hs; subst hs
    unfold St.pushCas
    split
    · next hqt =>
      refine h.keep hp rfl rfl ?_
      rw [if_pos (hqt ▸ hq)]; exact hp
    · exact h.keep hq rfl rfl hp
  case w b =>
    rw [if_neg (by rw [ho]; exact Ne.symm hp)] at hs
    injection hs with hs; subst hs; exact h.keep hq rfl rfl hp
  case h b =>
    split at hs
    · injection hs with hs; subst hs; exact h.keep hq rfl rfl hp
    · cases hs

/-- C69 (negation): `FastLock::Async` on a free lock (fastlock.h:141-151) puts its slot in the
queue and ignores that the ownership was granted at once, so `owner` is never set: the destructor
of the section waits, and neither this thread nor any other one ever gets the lock. -/
theorem c69_async_violated : ∃ s, Reach stacks WithAsync s ∧ Waiting s 1 ∧
    ∀ s' t, Run stacks (fun _ => True) s s' → s'.pc t ≠ .hold := by
  cases h : exec stacks {} [(1, .async, 0), (1, .lock, 11), (1, .lock, 0), (1, .lock, 0)] with
  | none => exact absurd h (by decide +kernel)
  | some s =>
    refine ⟨s, exec_reach _ .init (by decide +kernel) h, ?_, ?_⟩
    · have : (exec stacks {} [(1, .async, 0), (1, .lock, 11), (1, .lock, 0), (1, .lock, 0)]).map
        (fun s => s.pc 1) = some (.w 11) := by decide +kernel
      rw [h] at this
      exact ⟨11, Or.inl (by simpa using this)⟩
    · have hd : Dead s := by
        simp [exec, step, St.goto, St.pushCas, upd, stacks] at h
        subst h
        refine ⟨by simp, rfl, fun t => ?_⟩
        by_cases ht : t = 1 <;> simp [ht, upd, outside]
      intro s' t hr
      have : Dead s' := by
        clear h
        induction hr with
        | refl => exact hd
        | step _ hs _ ih => exact ih (hd.step hs)
      intro hh
      have := this.pcs t
      rw [hh] at this
      exact this

end LS.FastLock

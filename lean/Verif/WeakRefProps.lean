import Verif.WeakRef
import Verif.FastLockProps
/-
C48: after the target withdrew itself nobody uses it through a weak reference.
-/
namespace LS.WeakRef
open LS.FastLock (upd upd_same upd_ne)

/-- Sum of `p` over the users. -/
def cnt (p : U → Nat) (f : Nat → U) : Nat → Nat
  | 0 => 0
  | n + 1 => cnt p f n + p (f n)

theorem cnt_out (p : U → Nat) (f : Nat → U) (i : Nat) (v : U) : ∀ n, n ≤ i → cnt p (upd f i v) n = cnt p f n
  | 0, _ => rfl
  | n + 1, h => by
    show cnt p (upd f i v) n + p (upd f i v n) = cnt p f n + p (f n)
    rw [cnt_out p f i v n (by omega), upd_ne _ _ (by omega)]

theorem cnt_upd (p : U → Nat) (f : Nat → U) (i : Nat) (v : U) : ∀ n, i < n → cnt p (upd f i v) n + p (f i) = cnt p f n + p v
  | 0, h => by omega
  | n + 1, h => by
    show cnt p (upd f i v) n + p (upd f i v n) + p (f i) = cnt p f n + p (f n) + p v
    by_cases e : i = n
    · subst e; rw [cnt_out p f i v i (Nat.le_refl _), upd_same]; omega
    · have := cnt_upd p f i v n (by omega)
      rw [upd_ne _ _ (fun x => e x.symm)]; omega

theorem cnt_zero (p : U → Nat) (f : Nat → U) : ∀ n, cnt p f n = 0 ↔ ∀ i < n, p (f i) = 0
  | 0 => by simp [cnt]
  | n + 1 => by
    show cnt p f n + p (f n) = 0 ↔ _
    rw [Nat.add_eq_zero_iff, cnt_zero p f n]
    constructor
    · rintro ⟨h1, h2⟩ i hi
      by_cases e : i = n
      · subst e; exact h2
      · exact h1 i (by omega)
    · exact fun h => ⟨fun i hi => h i (by omega), h n (by omega)⟩

theorem cnt_le (p : U → Nat) (hp : ∀ u, p u ≤ 1) (f : Nat → U) : ∀ n, cnt p f n ≤ n
  | 0 => Nat.le_refl _
  | n + 1 => by
    show cnt p f n + p (f n) ≤ n + 1
    have := cnt_le p hp f n; have := hp (f n); omega

def U.lk : U → Nat
  | .has | .nul => 1
  | _ => 0

def U.hs : U → Nat
  | .has => 1
  | _ => 0

/-- `lockCount` without the number of locks. -/
def D.base : D → Int
  | .run | .d1 | .d2 => initedFlag
  | .d3 | .d4 | .d5 => 0
  | .done | .gone => leftFlag

structure Inv (n : Nat) (s : St) : Prop where
  v : s.v = s.d.base + cnt U.lk s.u n
  out : ∀ i, n ≤ i → s.u i = .out
  /-- nobody gets NULL before the withdrawal, and nobody wakes -/
  pre : s.d = .run ∨ s.d = .d1 ∨ s.d = .d2 → ∀ i, s.u i = .out ∨ s.u i = .has
  post : s.d = .d5 ∨ s.d = .done ∨ s.d = .gone → ∀ i, s.u i ≠ .has
  ntf : s.d = .d2 ∨ s.d = .d3 ∨ s.d = .d4 ∨ s.d = .d5 → s.notify = true
  wk : ∀ i, s.u i = .wk → s.notify = true
  /-- no lost wake-up -/
  nl : s.d = .d3 → s.tok > 0 ∨ (∃ i, s.u i = .wk) ∨ s.v ≠ 0

theorem base_bounds {n : Nat} (hn : n < 2 ^ 62) {s : St} (i : Inv n s) : -2 ^ 63 ≤ s.v ∧ s.v < 2 ^ 63 ∧ (s.d = .run ∨ s.d = .d1 ∨ s.d = .d2 → s.v < 0) ∧
    (¬(s.d = .run ∨ s.d = .d1 ∨ s.d = .d2) → 0 ≤ s.v) ∧ (s.d = .done ∨ s.d = .gone → 2 ^ 62 ≤ s.v) := by
  have h1 := i.v
  have h2 := cnt_le U.lk (fun u => by cases u <;> decide) s.u n
  have : (cnt U.lk s.u n : Int) ≤ n := by exact_mod_cast h2
  have hn' : (n : Int) < 2 ^ 62 := by exact_mod_cast hn
  cases hd : s.d <;> simp [hd, D.base, initedFlag, leftFlag] at h1 ⊢ <;> omega

theorem Inv.s_v {n : Nat} (hn : n < 2 ^ 61) {s s' : St} (i : Inv n s) (t : Tr n s s') : s'.v = s'.d.base + cnt U.lk s'.u n := by
  obtain ⟨b1, b2, b3, b4, b5⟩ := base_bounds (by omega) i
  have h1 := i.v
  have bb := cnt_le U.lk (fun u => by cases u <;> decide) s.u n
  have nw := i.post
  have pre := i.pre
  cases t
  case lock i hi h =>
    have e := cnt_upd U.lk s.u i (if s.v + 1 < 0 then .has else .nul) n hi
    have : U.lk (if s.v + 1 < 0 then .has else .nul) = 1 := by split <;> rfl
    simp only [h, this] at e ⊢
    have : U.lk .out = 0 := rfl
    omega
  case unlock i hi h =>
    have e := cnt_upd U.lk s.u i (if s.v - 1 = 0 then .wk else .out) n hi
    have h2 : U.lk (if s.v - 1 = 0 then .wk else .out) = 0 := by split <;> rfl
    have h3 : U.lk (s.u i) = 1 := by rcases h with h | h <;> rw [h] <;> rfl
    simp only [h2, h3] at e ⊢
    omega
  case wake i hi h =>
    have e := cnt_upd U.lk s.u i .out n hi
    simp only [h, U.lk] at e ⊢
    rw [h1]; omega
  all_goals clear nw pre b1 b2 b3 b4 b5
  case casOk h hv => simp only [h, D.base] at h1 ⊢; omega
  case casFail h hv hl => simp only [h, D.base] at h1 ⊢; omega
  case casSkip h hv hl => exfalso; simp only [h, D.base, initedFlag] at h1 hv hl; omega
  case notify h => simp only [h, D.base] at h1 ⊢; omega
  case sub h =>
    have e : D.base (if s.v - initedFlag ≠ 0 then .d3 else .d5) = 0 := by split <;> rfl
    show s.v - initedFlag = D.base (if s.v - initedFlag ≠ 0 then .d3 else .d5) + cnt U.lk s.u n
    simp only [h, D.base] at h1; rw [e]; omega
  case halt h ht => simp only [h, D.base] at h1 ⊢; omega
  case spurious h => simp only [h, D.base] at h1 ⊢; omega
  case look h =>
    have e : D.base (if s.v ≠ 0 then .d3 else .d5) = 0 := by split <;> rfl
    show s.v = D.base (if s.v ≠ 0 then .d3 else .d5) + cnt U.lk s.u n
    simp only [h, D.base] at h1; rw [e]; omega
  case left h => simp only [h, D.base] at h1 ⊢; omega
  case exit h => simp only [h, D.base] at h1 ⊢; omega

theorem Inv.step {n : Nat} (hn : n < 2 ^ 61) {s s' : St} (i : Inv n s) (t : Tr n s s') : Inv n s' := by
  have hv := i.s_v hn t
  obtain ⟨b1, b2, b3, b4, b5⟩ := base_bounds (by omega) i
  have b6 : s.d = .run ∨ s.d = .d1 ∨ s.d = .d2 → s.v + 1 < 0 := fun h => by
    have h1 := i.v
    have h2 := cnt_le U.lk (fun u => by cases u <;> decide) s.u n
    have : s.d.base = initedFlag := by rcases h with h | h | h <;> rw [h] <;> rfl
    rw [this, initedFlag] at h1
    omega
  have cz : s.d = .d2 ∧ s.v = initedFlag ∨ s.d = .d4 ∧ s.v = 0 ∨ s.d = .run ∧ s.v = initedFlag → ∀ i, s.u i ≠ .has := by
    intro h
    have hz : cnt U.lk s.u n = 0 := by
      have h1 := i.v
      rcases h with ⟨h, h'⟩ | ⟨h, h'⟩ | ⟨h, h'⟩ <;> simp [h, h', D.base] at h1 <;> omega
    intro j hj
    by_cases hjn : j < n
    · have := (cnt_zero U.lk s.u n).1 hz j hjn; simp [hj, U.lk] at this
    · have := i.out j (by omega); simp [hj] at this
  obtain ⟨v, out, pre, post, ntf, wk, nl⟩ := i
  refine ⟨hv, ?_, ?_, ?_, ?_, ?_, ?_⟩ <;> clear hv
  · cases t <;> grind [upd]
  · cases t <;> grind [upd]
  · cases t <;> simp only [] <;> grind [upd, initedFlag]
  · cases t <;> grind [upd]
  · have key : s.v - 1 = 0 → s.notify = true := fun e => by
      cases hd : s.d <;> simp [hd] at b3 b4 b5 ntf <;> first | omega | exact ntf
    cases t <;> grind [upd]
  · cases t
    case unlock i hi h =>
      intro hd
      by_cases e : s.v - 1 = 0
      · exact .inr (.inl ⟨i, by simp [e, upd_same]⟩)
      · exact .inr (.inr e)
    case wake i hi h => exact fun _ => .inl (Nat.succ_pos _)
    case lock i hi h => exact fun hd => .inr (.inr (by have := b4 (by simp_all); simp only; omega))
    all_goals grind

theorem Reach.inv {n : Nat} (hn : n < 2 ^ 61) {s : St} (h : Reach n s) : Inv n s := by
  induction h with
  | init =>
    refine ⟨?_, by simp, by simp, by simp, by simp, by simp, by simp⟩
    have : cnt U.lk (fun _ => .out) n = 0 := (cnt_zero _ _ _).2 fun _ _ => rfl
    simp [this, D.base]
  | step _ t ih => exact ih.step hn t

/-- C48: after `setNull` returned, no user has a pointer to the target. -/
theorem C48_withdrawn {n : Nat} (hn : n < 2 ^ 61) {s : St} (h : Reach n s) (hd : s.d = .done ∨ s.d = .gone) (i : Nat) : s.u i ≠ .has :=
  (h.inv hn).post (.inr hd) i

/-- C48: after the flag was removed every lock gives NULL. -/
theorem C48_null {n : Nat} (hn : n < 2 ^ 61) {s s' : St} (h : Reach n s) (hd : s.d ≠ .run ∧ s.d ≠ .d1 ∧ s.d ≠ .d2) (t : Tr n s s') {i : Nat} (ho : s.u i = .out) :
    s'.u i = .out ∨ s'.u i = .nul := by
  have b := (base_bounds (by omega) (h.inv hn)).2.2.2.1 (by simp [hd])
  cases t <;> grind [upd]

/-- C48: before it every lock gives the pointer. -/
theorem C48_valid {n : Nat} (hn : n < 2 ^ 61) {s : St} (h : Reach n s) (hd : s.d = .run) (i : Nat) : s.u i = .out ∨ s.u i = .has :=
  (h.inv hn).pre (.inl hd) i

/-- C48, no lost wake-up: the target sleeps in `setNull` only while the reference is locked or somebody is about to wake it. -/
theorem C48_wakeup {n : Nat} (hn : n < 2 ^ 61) {s : St} (h : Reach n s) (hd : s.d = .d3) (ht : s.tok = 0) : ∃ i, s.u i = .has ∨ s.u i = .nul ∨ s.u i = .wk := by
  have i := h.inv hn
  rcases i.nl hd with h | ⟨j, h⟩ | h
  · omega
  · exact ⟨j, .inr (.inr h)⟩
  · have h1 := i.v
    refine Classical.byContradiction fun hn' => h ?_
    have : cnt U.lk s.u n = 0 := (cnt_zero _ _ _).2 fun j _ => by
      cases e : s.u j with
      | out => rfl
      | wk => rfl
      | has => exact absurd ⟨j, .inl e⟩ hn'
      | nul => exact absurd ⟨j, .inr (.inl e)⟩ hn'
    rw [h1, this, hd]; rfl

/-- C48: the count stays in the range of the type. -/
theorem C48_range {n : Nat} (hn : n < 2 ^ 61) {s : St} (h : Reach n s) : -2 ^ 63 ≤ s.v ∧ s.v < 2 ^ 63 :=
  let b := base_bounds (by omega) (h.inv hn); ⟨b.1, b.2.1⟩

/-- C48, memory: while the sleeper of the target exists, no user calls a NULL or destroyed sleeper.  Missing: users which are late, see `C48_notify_violated`. -/
theorem C48_notify_partial {n : Nat} (hn : n < 2 ^ 61) {s : St} (h : Reach n s) (hg : s.d ≠ .gone) : ¬ UB s := by
  rintro ⟨i, hi, h' | h'⟩
  · have := (h.inv hn).wk i hi; simp_all
  · exact hg h'

/-- The last user decrements the count, the target (woken by somebody else) sees zero, leaves `setNull` and its thread ends; then the user wakes the sleeper, which is destroyed
(weakref.h:140-144 and 197-208: the comment in 206-207 is wrong). -/
theorem C48_notify_violated : ∃ s, Reach 1 s ∧ UB s := by
  have r1 := Reach.step (n := 1) .init (.lock _ 0 (by decide) rfl)
  have r2 := Reach.step r1 (.casFail _ rfl (by decide) (by decide))
  have r3 := Reach.step r2 (.notify _ rfl)
  have r4 := Reach.step r3 (.sub _ rfl)
  have r5 := Reach.step r4 (.unlock _ 0 (by decide) (.inl rfl))
  have r6 := Reach.step r5 (.spurious _ rfl)
  have r7 := Reach.step r6 (.look _ rfl)
  have r8 := Reach.step r7 (.left _ rfl)
  have r9 := Reach.step r8 (.exit _ rfl)
  exact ⟨_, r9, 0, rfl, .inr rfl⟩

/-- The same without a wake-up by somebody else: another user wakes the target between two users which both reach zero. -/
theorem C48_notify_violated' : ∃ s, Reach 2 s ∧ UB s := by
  have r1 := Reach.step (n := 2) .init (.lock _ 0 (by decide) rfl)
  have r2 := Reach.step r1 (.casFail _ rfl (by decide) (by decide))
  have r3 := Reach.step r2 (.notify _ rfl)
  have r4 := Reach.step r3 (.sub _ rfl)
  have r5 := Reach.step r4 (.unlock _ 0 (by decide) (.inl rfl))
  have r6 := Reach.step r5 (.lock _ 1 (by decide) rfl)
  have r7 := Reach.step r6 (.unlock _ 1 (by decide) (.inr rfl))
  have r8 := Reach.step r7 (.wake _ 0 (by decide) rfl)
  have r9 := Reach.step r8 (.halt _ rfl (by decide))
  have r10 := Reach.step r9 (.look _ rfl)
  have r11 := Reach.step r10 (.left _ rfl)
  have r12 := Reach.step r11 (.exit _ rfl)
  exact ⟨_, r12, 1, rfl, .inr rfl⟩

/-- Example: two users, the target waits for both. -/
example : ∃ s, Reach 2 s ∧ s.d = .done ∧ s.v = leftFlag ∧ s.u 0 = .out := by
  have r1 := Reach.step (n := 2) .init (.lock _ 0 (by decide) rfl)
  have r2 := Reach.step r1 (.lock _ 1 (by decide) rfl)
  have r3 := Reach.step r2 (.casFail _ rfl (by decide) (by decide))
  have r4 := Reach.step r3 (.notify _ rfl)
  have r5 := Reach.step r4 (.sub _ rfl)
  have r6 := Reach.step r5 (.unlock _ 0 (by decide) (.inl rfl))
  have r7 := Reach.step r6 (.unlock _ 1 (by decide) (.inl rfl))
  have r8 := Reach.step r7 (.wake _ 1 (by decide) rfl)
  have r9 := Reach.step r8 (.halt _ rfl (by decide))
  have r10 := Reach.step r9 (.look _ rfl)
  have r11 := Reach.step r10 (.left _ rfl)
  exact ⟨_, r11, rfl, rfl, rfl⟩

/-- Ghost: the holders as a list. -/
structure SInv (s : Seq) (L : List (Nat × H)) : Prop where
  nd : (L.map Prod.fst).Nodup
  mem : ∀ a h, s.h a = some h ↔ (a, h) ∈ L
  cnt : ∀ r, (s.v r = initedFlag + (L.countP fun p => p.2.me = r) ∧ ∀ p, p ∈ L → p.2.me = r → p.2.ptr = some r) ∨
    (s.v r = leftFlag + (L.countP fun p => p.2.me = r) ∧ ∀ p, p ∈ L → p.2.me = r → p.2.ptr = none)

theorem lock_inv {s : Seq} {L : List (Nat × H)} (i : SInv s L) (hb : L.length < 2 ^ 61) {a : Nat} (r : Nat) (ha : s.h a = none) :
    ∃ p, SInv { (s.lockInt r).1 with h := upd (s.lockInt r).1.h a (some ⟨(s.lockInt r).2, r⟩) } ((a, ⟨p, r⟩) :: L) := by
  refine ⟨(s.lockInt r).2, ?_, ?_, ?_⟩
  · rw [List.map_cons, List.nodup_cons]
    refine ⟨fun h => ?_, i.nd⟩
    obtain ⟨⟨a', h'⟩, h1, h2⟩ := List.mem_map.mp h
    simp only at h2; subst h2
    rw [(i.mem _ _).mpr h1] at ha; cases ha
  · intro b h
    simp only [Seq.lockInt, upd, List.mem_cons, Prod.mk.injEq]
    by_cases e : b = a
    · subst e
      simp only [if_true, Option.some.injEq, true_and]
      have : ¬ (b, h) ∈ L := fun h1 => by rw [(i.mem _ _).mpr h1] at ha; cases ha
      exact ⟨fun h => .inl h.symm, fun h => h.elim Eq.symm (fun h => absurd h this)⟩
    · simp only [e, if_false, false_and, false_or]
      exact i.mem b h
  · intro q
    have hc := i.cnt q
    have hl : (L.countP fun p => p.2.me = q) ≤ L.length := List.countP_le_length
    have f1 : initedFlag = -2 ^ 63 := rfl
    have f2 : leftFlag = 2 ^ 62 := rfl
    generalize hn : (L.countP fun p => decide (p.2.me = q)) = n at hc hl
    by_cases e : q = r
    · subst e
      simp only [Seq.lockInt, upd, if_true, List.countP_cons, decide_true, hn]
      rcases hc with ⟨h1, h2⟩ | ⟨h1, h2⟩
      · left
        refine ⟨by rw [h1]; push_cast; omega, fun p hp hm => ?_⟩
        rcases List.mem_cons.mp hp with h | h
        · subst h
          have : s.v q + 1 < 0 := by rw [h1]; omega
          simp [this]
        · exact h2 p h hm
      · right
        refine ⟨by rw [h1]; push_cast; omega, fun p hp hm => ?_⟩
        rcases List.mem_cons.mp hp with h | h
        · subst h
          have : ¬ s.v q + 1 < 0 := by rw [h1]; omega
          simp [this]
        · exact h2 p h hm
    · have e' : ¬ r = q := fun h => e h.symm
      simp only [Seq.lockInt, upd, e, if_false, List.countP_cons, e', decide_false, hn]
      rcases hc with ⟨h1, h2⟩ | ⟨h1, h2⟩
      · left
        refine ⟨by simpa using h1, fun p hp hm => ?_⟩
        rcases List.mem_cons.mp hp with h | h
        · subst h; exact absurd hm e'
        · exact h2 p h hm
      · right
        refine ⟨by simpa using h1, fun p hp hm => ?_⟩
        rcases List.mem_cons.mp hp with h | h
        · subst h; exact absurd hm e'
        · exact h2 p h hm

/-- The operation is not the assignment. -/
def Op.plain : Op → Bool
  | .assign _ _ => false
  | _ => true

theorem step_inv {s s' : Seq} {L : List (Nat × H)} (i : SInv s L) (hb : L.length < 2 ^ 61) {o : Op} (ho : o.plain = true)
    (e : s.step o = some s') : ∃ L', SInv s' L' ∧ L'.length ≤ L.length + 1 := by
  cases o with
  | assign a b => cases ho
  | lock a r =>
    simp only [Seq.step] at e
    split at e
    · rename_i ha
      simp only [Option.some.injEq] at e
      subst e
      obtain ⟨p, h⟩ := lock_inv i hb r ha
      exact ⟨_, h, by simp⟩
    · cases e
  | copy a b =>
    simp only [Seq.step] at e
    split at e
    · rename_i ha hbb
      simp only [Option.some.injEq] at e
      subst e
      obtain ⟨p, h⟩ := lock_inv i hb _ ha
      exact ⟨_, h, by simp⟩
    · cases e
  | drop a =>
    simp only [Seq.step] at e
    split at e
    · rename_i ha h
      simp only [Option.some.injEq] at e
      subst e
      obtain ⟨L1, L2, hL⟩ := List.append_of_mem ((i.mem _ _).mp h)
      have nd := i.nd
      subst hL
      refine ⟨L1 ++ L2, ⟨?_, ?_, ?_⟩, by simp; omega⟩
      · rw [List.map_append] at nd ⊢
        rw [List.map_cons] at nd
        exact nd.sublist (List.Sublist.append (List.Sublist.refl _) (List.sublist_cons_self _ _))
      · intro b hh
        have hm := i.mem b hh
        simp only [upd]
        by_cases eb : b = a
        · subst eb
          simp only [if_true]
          refine ⟨fun h => (by cases h), fun h => ?_⟩
          rw [List.map_append, List.map_cons, List.nodup_append] at nd
          have n2 := nd.2.1
          rw [List.nodup_cons] at n2
          rcases List.mem_append.mp h with h | h
          · exact absurd rfl (nd.2.2 b (List.mem_map.mpr ⟨_, h, rfl⟩) b List.mem_cons_self)
          · exact absurd (List.mem_map.mpr ⟨_, h, rfl⟩) n2.1
        · simp only [eb, if_false]
          rw [hm]
          simp [eb]
      · intro q
        have hc := i.cnt q
        simp only [List.countP_append, List.countP_cons] at hc ⊢
        by_cases eq : q = ha.me
        · subst eq
          simp only [upd, if_true, decide_true] at hc ⊢
          rcases hc with ⟨h1, h2⟩ | ⟨h1, h2⟩
          · left
            refine ⟨by rw [h1]; push_cast; omega, fun p hp hm => h2 p ?_ hm⟩
            rcases List.mem_append.mp hp with h | h <;> simp [h]
          · right
            refine ⟨by rw [h1]; push_cast; omega, fun p hp hm => h2 p ?_ hm⟩
            rcases List.mem_append.mp hp with h | h <;> simp [h]
        · have e' : ¬ ha.me = q := fun h => eq h.symm
          simp only [upd, eq, if_false, e', decide_false] at hc ⊢
          rcases hc with ⟨h1, h2⟩ | ⟨h1, h2⟩
          · left
            refine ⟨by simpa using h1, fun p hp hm => h2 p ?_ hm⟩
            rcases List.mem_append.mp hp with h | h <;> simp [h]
          · right
            refine ⟨by simpa using h1, fun p hp hm => h2 p ?_ hm⟩
            rcases List.mem_append.mp hp with h | h <;> simp [h]
    · cases e
  | setNull r =>
    simp only [Seq.step] at e
    have hl : ∀ q, (L.countP fun p => p.2.me = q) ≤ L.length := fun q => List.countP_le_length
    have f1 : initedFlag = -2 ^ 63 := rfl
    have f2 : leftFlag = 2 ^ 62 := rfl
    split at e
    · rename_i hv
      simp only [Option.some.injEq] at e
      subst e
      refine ⟨L, ⟨i.nd, i.mem, fun q => ?_⟩, by omega⟩
      have hc := i.cnt q
      by_cases eq : q = r
      · subst eq
        right
        have h0 : (L.countP fun p => p.2.me = q) = 0 := by
          have := hl q
          rcases hc with ⟨h1, _⟩ | ⟨h1, _⟩ <;> omega
        simp only [upd, if_true]
        refine ⟨by rw [h0]; simp, fun p hp hm => ?_⟩
        have := List.countP_eq_zero.mp h0 p hp
        exact absurd hm (by simpa using this)
      · simp only [upd, eq, if_false]
        exact hc
    · split at e
      · cases e
      · simp only [Option.some.injEq] at e
        subst e
        exact ⟨L, i, by omega⟩

theorem seq_inv : ∀ (os : List Op) {s s' : Seq} {L : List (Nat × H)}, SInv s L → L.length + os.length < 2 ^ 61 → (∀ o, o ∈ os → o.plain = true) →
    s.run os = some s' → ∃ L', SInv s' L' ∧ L'.length ≤ L.length + os.length
  | [], s, s', L, i, _, _, e => by
    simp only [Seq.run, Option.some.injEq] at e
    subst e
    exact ⟨L, i, by simp⟩
  | o :: os, s, s', L, i, hb, ho, e => by
    rw [List.length_cons] at hb
    rw [Seq.run] at e
    cases e1 : s.step o with
    | none => rw [e1] at e; cases e
    | some s1 =>
      rw [e1] at e
      obtain ⟨L1, i1, l1⟩ := step_inv i (by omega) (ho o List.mem_cons_self) e1
      obtain ⟨L2, i2, l2⟩ := seq_inv os i1 (by omega) (fun o h => ho o (List.mem_cons_of_mem _ h)) e
      exact ⟨L2, i2, by rw [List.length_cons]; omega⟩

/-- C48 for the pointer class in one thread: after any locks, copies and destructions of pointers, the withdrawal of a target is complete only when no holder has its pointer, and from then on
holders get NULL; a target nobody holds can always withdraw.  Missing: assignments, see `C48_assign_violated`. -/
theorem C48_holders_partial {os os' : List Op} {s s' s'' : Seq} {r : Nat} (hb : os.length + os'.length < 2 ^ 60) (ho : ∀ o, o ∈ os ++ os' → o.plain = true)
    (e : Seq.run {} os = some s) (e1 : s.step (.setNull r) = some s') (e2 : s'.run os' = some s'') :
    ∀ a h, s''.h a = some h → h.ptr ≠ some r := by
  have i0 : SInv {} [] := ⟨by simp, fun a h => by simp, fun q => .inl ⟨by simp, by simp⟩⟩
  obtain ⟨L, i, l⟩ := seq_inv os i0 (by simp; omega) (fun o h => ho o (List.mem_append.mpr (.inl h))) e
  rw [List.length_nil] at l
  have f1 : initedFlag = -2 ^ 63 := rfl
  have f2 : leftFlag = 2 ^ 62 := rfl
  have hnn : 0 ≤ s'.v r := by
    have hl : (L.countP fun p => p.2.me = r) ≤ L.length := List.countP_le_length
    simp only [Seq.step] at e1
    split at e1
    · simp only [Option.some.injEq] at e1
      subst e1
      simp only [upd, if_true]; omega
    · split at e1
      · cases e1
      · simp only [Option.some.injEq] at e1
        subst e1
        rcases i.cnt r with ⟨h1, _⟩ | ⟨h1, _⟩ <;> omega
  obtain ⟨L', i', l'⟩ := step_inv (o := .setNull r) i (by omega) rfl e1
  -- never negative again
  have keep : ∀ (os : List Op) (s s' : Seq) (L : List (Nat × H)), SInv s L → L.length + os.length < 2 ^ 61 → (∀ o, o ∈ os → o.plain = true) →
      s.run os = some s' → 0 ≤ s.v r → 0 ≤ s'.v r ∧ ∃ L', SInv s' L' ∧ L'.length ≤ L.length + os.length := by
    intro os
    induction os with
    | nil =>
      intro s s' L i _ _ e h
      simp only [Seq.run, Option.some.injEq] at e
      subst e
      exact ⟨h, L, i, by simp⟩
    | cons o os ih =>
      intro s s' L i hb ho e h
      rw [List.length_cons] at hb
      rw [Seq.run] at e
      cases e1 : s.step o with
      | none => rw [e1] at e; cases e
      | some s1 =>
        rw [e1] at e
        obtain ⟨L1, i1, l1⟩ := step_inv i (by omega) (ho o List.mem_cons_self) e1
        have hl : (L.countP fun p => p.2.me = r) ≤ L.length := List.countP_le_length
        have hv : leftFlag ≤ s.v r := by rcases i.cnt r with ⟨h1, _⟩ | ⟨h1, _⟩ <;> omega
        have h1 : 0 ≤ s1.v r := by
          cases o with
          | assign a b => cases ho _ List.mem_cons_self
          | lock a q =>
            simp only [Seq.step] at e1
            split at e1
            · simp only [Option.some.injEq] at e1
              subst e1
              simp only [Seq.lockInt, upd]
              split <;> rename_i eq
              · subst eq; omega
              · exact h
            · cases e1
          | copy a b =>
            simp only [Seq.step] at e1
            split at e1
            · simp only [Option.some.injEq] at e1
              subst e1
              simp only [Seq.lockInt, upd]
              split <;> rename_i eq
              · rw [← eq]; omega
              · exact h
            · cases e1
          | drop a =>
            simp only [Seq.step] at e1
            split at e1
            · simp only [Option.some.injEq] at e1
              subst e1
              simp only [upd]
              split <;> rename_i eq
              · rw [← eq]; omega
              · exact h
            · cases e1
          | setNull q =>
            simp only [Seq.step] at e1
            split at e1
            · simp only [Option.some.injEq] at e1
              subst e1
              simp only [upd]
              split
              · omega
              · exact h
            · split at e1
              · cases e1
              · simp only [Option.some.injEq] at e1
                subst e1; exact h
        obtain ⟨h2, L2, i2, l2⟩ := ih s1 s' L1 i1 (by omega) (fun o h => ho o (List.mem_cons_of_mem _ h)) e h1
        exact ⟨h2, L2, i2, by rw [List.length_cons]; omega⟩
  obtain ⟨h2, L2, i2, l2⟩ := keep os' s' s'' L' i' (by omega) (fun o h => ho o (List.mem_append.mpr (.inr h))) e2 hnn
  intro a h ha
  have hm := (i2.mem _ _).mp ha
  have hl : (L2.countP fun p => p.2.me = r) ≤ L2.length := List.countP_le_length
  have hr : ∀ p, p ∈ L2 → p.2.me = r → p.2.ptr = none := by
    rcases i2.cnt r with ⟨h1, _⟩ | ⟨_, h1⟩
    · omega
    · exact h1
  intro hp
  -- a pointer is always that of its own reference
  rcases i2.cnt h.me with ⟨_, h1⟩ | ⟨_, h1⟩
  · have := h1 _ hm rfl
    rw [hp] at this
    have : h.me = r := by simpa using this.symm
    have := hr _ hm this
    rw [hp] at this; cases this
  · have := h1 _ hm rfl
    rw [hp] at this; cases this

/-- C48, one thread: a target that nobody holds withdraws without waiting, and a pointer locked before is the target. -/
theorem C48_free_partial {os : List Op} {s : Seq} (hb : os.length < 2 ^ 60) (ho : ∀ o, o ∈ os → o.plain = true) (e : Seq.run {} os = some s) (r : Nat) :
    ((∀ a h, s.h a = some h → h.me ≠ r) → ∃ s', s.step (.setNull r) = some s') ∧
    (s.step (.setNull r) = none → ∃ a, s.h a = some ⟨some r, r⟩) := by
  have i0 : SInv {} [] := ⟨by simp, fun a h => by simp, fun q => .inl ⟨by simp, by simp⟩⟩
  obtain ⟨L, i, l⟩ := seq_inv os i0 (by simp; omega) ho e
  rw [List.length_nil] at l
  have f1 : initedFlag = -2 ^ 63 := rfl
  have f2 : leftFlag = 2 ^ 62 := rfl
  have hl : (L.countP fun p => p.2.me = r) ≤ L.length := List.countP_le_length
  have key : s.step (.setNull r) = none → ∃ a, s.h a = some ⟨some r, r⟩ := by
    intro h
    simp only [Seq.step] at h
    split at h
    · cases h
    · split at h
      · rename_i hv1 hv2
        rcases i.cnt r with ⟨h1, h2⟩ | ⟨h1, _⟩
        · have : 0 < (L.countP fun p => p.2.me = r) := by omega
          obtain ⟨⟨a, ⟨p, m⟩⟩, h3, h4⟩ := List.countP_pos_iff.mp this
          have h4 : m = r := by simpa using h4
          have h5 := h2 _ h3 h4
          simp only at h5
          subst h4 h5
          exact ⟨a, (i.mem _ _).mpr h3⟩
        · omega
      · cases h
  refine ⟨fun h => ?_, key⟩
  cases e1 : s.step (.setNull r) with
  | some s' => exact ⟨s', rfl⟩
  | none =>
    obtain ⟨a, ha⟩ := key e1
    exact absurd rfl (h a _ ha)

/-- Concrete case: two holders of target 1, then it withdraws and a later lock gives NULL. -/
example : ∃ s, Seq.run {} [.lock 0 1, .copy 5 0, .drop 0, .drop 5, .setNull 1, .lock 0 1] = some s ∧ s.h 0 = some ⟨none, 1⟩ ∧ s.v 1 = leftFlag + 1 :=
  ⟨_, rfl, rfl, rfl⟩

/-- Concrete case: a held target has to wait. -/
example : Seq.run {} [.lock 0 1, .copy 5 0, .drop 0, .setNull 1] = none := rfl

/-- C48 is false when a locked pointer is assigned: the compiler's assignment moves no lock.  Holder 1 has a pointer to target 2 after target 2 withdrew itself, and target 1
cannot withdraw any more although nobody has its pointer. -/
theorem C48_assign_violated : ∃ s, Seq.run {} [.lock 1 1, .lock 2 2, .assign 1 2, .drop 2, .setNull 2] = some s ∧ s.h 1 = some ⟨some 2, 2⟩ ∧
    s.step (.setNull 1) = none ∧ (∀ a, s.h a ≠ some ⟨some 1, 1⟩) := by
  refine ⟨_, rfl, rfl, rfl, fun a => ?_⟩
  match a with
  | 0 => simp [upd]
  | 1 => simp [upd]
  | 2 => simp [upd]
  | n + 3 => simp [upd]
end LS.WeakRef

import Verif.Promise
import Verif.FastLockProps
/-!
# `Future` and `Promise`: specification and invariants

Specification: functions of the history only.
-/

namespace LS.Promise
open LS.FastLock (upd upd_same upd_ne)

/-! ## Specification -/

/-- The resolutions which took effect. -/
def resols (l : List Ev) : List Out := l.filterMap fun | .resolve o => some o | _ => none

/-- The registered observers, in order. -/
def regs (l : List Ev) : List Nat := l.filterMap fun | .reg x => some x | _ => none

/-- The observers called with the outcome of the resolution, in order. -/
def calls (l : List Ev) : List Nat := l.filterMap fun | .call x _ => some x | _ => none

/-- The observers which were notified (in any way). -/
def notified (l : List Ev) : List Nat :=
  l.filterMap fun | .call x _ => some x | .ccall x _ => some x | _ => none

/-- The observers which were notified or unregistered. -/
def done (l : List Ev) : List Nat :=
  l.filterMap fun | .call x _ => some x | .ccall x _ => some x | .unreg x => some x | _ => none

/-! ## `unregisterObserver` -/

theorem rotate_append (b : List Nat) : ∀ a : List Nat, rotate b.length (b ++ a) = a ++ b := by
  induction b with
  | nil => intro a; simp [rotate]
  | cons y b ih =>
    intro a
    show rotate b.length (b ++ a ++ [y]) = _
    rw [List.append_assoc, ih]
    simp

theorem unLoop_rest (x cnt : Nat) : ∀ (n : Nat) (a b : List Nat) (f : Bool), a.length = n → x ∉ a →
    unLoop x cnt n (b ++ a) f = (f, a ++ b) := by
  intro n
  induction n with
  | zero =>
    intro a b f hl hx
    have : a = [] := List.eq_nil_of_length_eq_zero hl
    subst this
    simp [unLoop]
  | succ n ih =>
    intro a b f hl hx
    rcases List.eq_nil_or_concat a with h | ⟨a', y, h⟩
    · subst h; cases hl
    · subst h
      simp only [List.concat_eq_append, List.mem_append, List.mem_singleton, not_or, List.length_append, List.length_singleton] at hx hl
      have h1 : y ≠ x := fun h => hx.2 h.symm
      rw [List.concat_eq_append, ← List.append_assoc]
      simp only [unLoop, List.getLast?_concat, List.dropLast_concat, h1, if_false]
      have := ih a' (y :: b) f (by omega) hx.1
      rw [List.cons_append] at this
      rw [this]
      simp

theorem unLoop_find (x : Nat) : ∀ (n : Nat) (a b : List Nat), a.length = n → (a ++ b).Nodup → x ∈ a →
    unLoop x (a.length + b.length) n (b ++ a) false = (true, a.erase x ++ b) := by
  intro n
  induction n with
  | zero =>
    intro a b hl hn hx
    have : a = [] := List.eq_nil_of_length_eq_zero hl
    subst this
    cases hx
  | succ n ih =>
    intro a b hl hn hx
    rcases List.eq_nil_or_concat a with h | ⟨a', y, h⟩
    · subst h; cases hl
    · subst h
      rw [List.concat_eq_append] at *
      simp only [List.length_append, List.length_singleton] at hl
      rw [← List.append_assoc]
      simp only [unLoop, List.getLast?_concat, List.dropLast_concat]
      by_cases h1 : y = x
      · subst h1
        have h2 : y ∉ a' := by
          intro h
          rw [List.append_assoc, List.nodup_append] at hn
          exact hn.2.2 y h y (by simp) rfl
        have h3 : (a' ++ [y]).erase y = a' := by
          rw [List.erase_append_right _ h2]; simp
        simp only [if_true]
        rw [h3]
        have e : (a' ++ [y]).length + b.length - (n + 1) = b.length := by simp; omega
        rw [e]
        split
        · rw [rotate_append]
        · rw [unLoop_rest y _ n a' b true (by omega) h2]
      · have h2 : x ∈ a' := by
          rcases List.mem_append.1 hx with h | h
          · exact h
          · simp at h; exact absurd h.symm h1
        simp only [h1, if_false]
        have := ih a' (y :: b) (by omega) (by simpa using hn) h2
        rw [List.cons_append] at this
        have e : (a' ++ [y]).length + b.length = a'.length + (y :: b).length := by simp; omega
        rw [e, this, List.erase_append_left _ h2]
        simp

theorem unregister_eq (x : Nat) {l : List Nat} (hn : l.Nodup) :
    unregister x l = (decide (x ∈ l), l.erase x) := by
  by_cases h : x ∈ l
  · have := unLoop_find x l.length l [] rfl (by simpa using hn) h
    simpa [unregister, h] using this
  · have := unLoop_rest x l.length l.length l [] false rfl h
    simp only [List.nil_append, List.append_nil] at this
    simp [unregister, h, this, List.erase_of_not_mem h]

/-! ## Transitions -/

/-- The transitions, without function calls. -/
inductive Tr (s : St) (t : Nat) : St → Prop
  | skip : Tr s t s
  | resolve0 o : s.pc t = .idle → s.value = none → s.obs = [] →
      Tr s t { s with resolving := false, value := some o, log := s.log ++ [.resolve o], obs := [], pc := upd s.pc t .idle }
  | resolve1 o x l : s.pc t = .idle → s.value = none → s.obs = x :: l →
      Tr s t { s with resolving := true, value := some o, log := s.log ++ [.resolve o], obs := l, hands := x :: s.hands, pc := upd s.pc t (.call x o .loop) }
  | regD x o : s.pc t = .idle → x ∉ s.seen → s.resolving = false → s.value = some o →
      Tr s t { s with seen := x :: s.seen, log := s.log ++ [.reg x], hands := x :: s.hands, pc := upd s.pc t (.call x o .ret) }
  | regL x : s.pc t = .idle → x ∉ s.seen → (s.resolving = true ∨ s.value = none) →
      Tr s t { s with seen := x :: s.seen, log := s.log ++ [.reg x], obs := s.obs ++ [x], pc := upd s.pc t .idle }
  | waitD x o : s.pc t = .wait0 x → s.resolving = false → s.value = some o →
      Tr s t { s with log := s.log ++ [.reg x], hands := x :: s.hands, pc := upd s.pc t (.call x o .wait) }
  | waitL x : s.pc t = .wait0 x → (s.resolving = true ∨ s.value = none) →
      Tr s t { s with log := s.log ++ [.reg x], obs := s.obs ++ [x], pc := upd s.pc t (.wait x) }
  | unreg x : s.pc t = .idle → x ∉ s.stack → x ∈ s.obs →
      Tr s t { s with obs := s.obs.erase x, log := s.log ++ [.unreg x] }
  | cancel e : (s.pc t = .idle ∨ s.pc t = .cancel0 e) →
      Tr s t { s with obs := [], hands := s.obs ++ s.hands, log := s.log ++ [.cancel e], pc := upd s.pc t (.cancel s.obs e) }
  | refs n : Tr s t { s with refs := n }
  | drop : s.pc t = .idle → Tr s t { s with refs := 0, log := s.log ++ [.drop], pc := upd s.pc t (.cancel0 canceled) }
  | waitS x o : s.pc t = .idle → x ∉ s.seen → s.value = some o →
      Tr s t { s with log := s.log ++ [.ret x o], seen := x :: s.seen }
  | wait0 x : s.pc t = .idle → x ∉ s.seen →
      Tr s t { s with seen := x :: s.seen, stack := x :: s.stack, pc := upd s.pc t (.wait0 x) }
  | call x o k : s.pc t = .call x o k →
      Tr s t { s with res := upd s.res x (some o), log := s.log ++ [k.ev x o], hands := s.hands.erase x, pc := upd s.pc t (.wake x k), ub := s.ub || s.dead x }
  | wake x k : s.pc t = .wake x k → Tr s t { s with ub := s.ub || s.dead x, pc := upd s.pc t (k.pc x) }
  | loop0 o : s.pc t = .loop → s.value = some o → s.obs = [] → Tr s t { s with obs := [], resolving := false, pc := upd s.pc t .idle }
  | loop1 o x l : s.pc t = .loop → s.value = some o → s.obs = x :: l →
      Tr s t { s with obs := l, hands := x :: s.hands, pc := upd s.pc t (.call x o .loop) }
  | cnil e : s.pc t = .cancel [] e → Tr s t { s with pc := upd s.pc t .idle }
  | ccons x l e : s.pc t = .cancel (x :: l) e → Tr s t { s with pc := upd s.pc t (.call x (.exc e) (.cancel l e)) }
  | wait1 x : s.pc t = .wait x → Tr s t { s with pc := upd s.pc t (.wait1 x) }
  | w1o x o : s.pc t = .wait1 x → x ∈ s.obs → s.res x = some o →
      Tr s t { s with obs := s.obs.erase x, log := s.log ++ [.unreg x] ++ [.ret x o], dead := upd s.dead x true, pc := upd s.pc t .idle }
  | w1t x : s.pc t = .wait1 x → x ∈ s.obs → s.res x = none →
      Tr s t { s with obs := s.obs.erase x, log := s.log ++ [.unreg x] ++ [.timeout x], dead := upd s.dead x true, pc := upd s.pc t .idle }
  | wait2 x : s.pc t = .wait1 x → x ∉ s.obs → Tr s t { s with pc := upd s.pc t (.wait2 x) }
  | w2 x o : s.pc t = .wait2 x → s.res x = some o →
      Tr s t { s with log := s.log ++ [.ret x o], dead := upd s.dead x true, pc := upd s.pc t .idle }

theorem upd_self {β : Type} (f : Nat → β) (i : Nat) (v : β) (h : f i = v) : upd f i v = f := by
  funext j
  unfold upd
  split
  · next e => rw [e, h]
  · rfl

theorem unreg_yes {s : St} {x : Nat} (hn : s.obs.Nodup) (h : x ∈ s.obs) :
    s.unreg x = { s with obs := s.obs.erase x, log := s.log ++ [.unreg x] } := by
  simp [St.unreg, unregister_eq x hn, h]

theorem unreg_no {s : St} {x : Nat} (hn : s.obs.Nodup) (h : x ∉ s.obs) : s.unreg x = s := by
  simp [St.unreg, unregister_eq x hn, h, List.erase_of_not_mem h]

theorem step_tr {s s' : St} {t : Nat} {op : Op} (hn : s.obs.Nodup) (h : step s t op = some s') : Tr s t s' := by
  unfold step at h
  split at h
  · next hpc =>
    split at h
    · next o =>
      split at h
      · cases h
      · injection h with h
        subst h
        unfold St.resolve
        split
        · exact .skip
        · next hv =>
          have hv : s.value = none := by simpa using hv
          unfold St.next
          cases ho : s.obs with
          | nil => simpa [ho] using Tr.resolve0 o hpc hv ho
          | cons x l => simpa [ho] using Tr.resolve1 o x l hpc hv ho
    · next x =>
      split at h
      · cases h
      · next hx =>
        injection h with h
        subst h
        unfold St.register
        dsimp only
        split
        · next o hr hv => exact .regD x o hpc hx hr hv
        · next hne =>
          refine .regL x hpc hx ?_
          cases hr : s.resolving with
          | true => exact .inl rfl
          | false =>
            cases hv : s.value with
            | none => exact .inr rfl
            | some o => exact absurd hv (hne o hr)
    · next x =>
      split at h
      · cases h
      · next hx =>
        injection h with h
        subst h
        by_cases hm : x ∈ s.obs
        · rw [unreg_yes hn hm]; exact .unreg x hpc hx hm
        · rw [unreg_no hn hm]; exact .skip
    · next e => injection h with h; subst h; exact .cancel e (.inl hpc)
    · injection h with h; subst h; exact .refs _
    · split at h
      · cases h
      · split at h
        · injection h with h; subst h; exact .drop hpc
        · injection h with h; subst h; exact .refs _
    · next x =>
      split at h
      · cases h
      · next hx =>
        split at h
        · next o hr hv => injection h with h; subst h; exact .waitS x o hpc hx hv
        · injection h with h; subst h; exact .wait0 x hpc hx
    · cases h
  · next x o k hpc => injection h with h; subst h; exact .call x o k hpc
  · next x k hpc => injection h with h; subst h; exact .wake x k hpc
  · next hpc =>
    split at h
    · next o hv =>
      injection h with h
      subst h
      unfold St.next
      cases ho : s.obs with
      | nil => simpa [ho] using Tr.loop0 o hpc hv ho
      | cons x l => simpa [ho] using Tr.loop1 o x l hpc hv ho
    · cases h
  · next l e hpc =>
    split at h
    · injection h with h; subst h; exact .cnil e hpc
    · next x l => injection h with h; subst h; exact .ccons x l e hpc
  · next e hpc => injection h with h; subst h; exact .cancel e (.inr hpc)
  · next x hpc =>
    injection h with h
    subst h
    unfold St.register
    split
    · next o hr hv => exact .waitD x o hpc hr hv
    · next hne =>
      refine .waitL x hpc ?_
      cases hr : s.resolving with
      | true => exact .inl rfl
      | false =>
        cases hv : s.value with
        | none => exact .inr rfl
        | some o => exact absurd hv (hne o hr)
  · next x hpc =>
    split at h
    · injection h with h; subst h; exact .wait1 x hpc
    · split at h
      · injection h with h; subst h; exact .wait1 x hpc
      · cases h
  · next x hpc =>
    split at h
    · next hm =>
      have hm : x ∈ s.obs := by simpa [unregister_eq x hn] using hm
      injection h with h
      subst h
      rw [unreg_yes hn hm]
      unfold St.ret
      cases hr : s.res x with
      | none => simpa [hr] using Tr.w1t x hpc hm hr
      | some o => simpa [hr] using Tr.w1o x o hpc hm hr
    · next hm =>
      have hm : x ∉ s.obs := by simpa [unregister_eq x hn] using hm
      injection h with h
      subst h
      rw [unreg_no hn hm]
      exact .wait2 x hpc hm
  · next x hpc =>
    split at h
    · next hm =>
      injection h with h
      subst h
      unfold St.ret
      cases hr : s.res x with
      | none => simp [hr] at hm
      | some o => exact .w2 x o hpc hr
    · cases h

/-! ## Invariants -/

/-- The observers which a thread holds. -/
def hold : PC → List Nat
  | .call x _ (.cancel l _) => x :: l
  | .call x _ _ => [x]
  | .wake _ (.cancel l _) => l
  | .cancel l _ => l
  | _ => []

/-- The observer of a thread in `wait`. -/
def waits : PC → Option Nat
  | .wait0 x => some x
  | .wait x => some x
  | .wait1 x => some x
  | .wait2 x => some x
  | .call x _ .wait => some x
  | .wake x .wait => some x
  | _ => none

structure InvA (s : St) : Prop where
  cnt : ∀ x, s.obs.count x + s.hands.count x + (done s.log).count x = (regs s.log).count x
  one : ∀ x, (regs s.log).count x ≤ 1
  seen : ∀ x ∈ regs s.log, x ∈ s.seen
  stk : ∀ x ∈ s.stack, x ∈ s.seen
  wstk : ∀ t x, waits (s.pc t) = some x → x ∈ s.stack
  wu : ∀ t t' x, waits (s.pc t) = some x → waits (s.pc t') = some x → t = t'
  w0 : ∀ t x, s.pc t = .wait0 x → x ∉ regs s.log
  w1 : ∀ t x, waits (s.pc t) = some x → s.pc t ≠ .wait0 x → x ∈ regs s.log
  hold : ∀ t x, x ∈ hold (s.pc t) → x ∈ s.hands
  held : ∀ x ∈ s.hands, ∃ t, x ∈ LS.Promise.hold (s.pc t)
  hn : ∀ t, (LS.Promise.hold (s.pc t)).Nodup
  hu : ∀ t t' x, x ∈ LS.Promise.hold (s.pc t) → x ∈ LS.Promise.hold (s.pc t') → t = t'

theorem regs_snoc (l : List Ev) (e : Ev) :
    regs (l ++ [e]) = regs l ++ (match e with | .reg x => [x] | _ => []) := by
  cases e <;> simp [regs]

theorem done_snoc (l : List Ev) (e : Ev) :
    done (l ++ [e]) = done l ++ (match e with | .call x _ => [x] | .ccall x _ => [x] | .unreg x => [x] | _ => []) := by
  cases e <;> simp [done]

theorem done_ev (l : List Ev) (x : Nat) (o : Out) (k : Cont) : done (l ++ [k.ev x o]) = done l ++ [x] := by
  cases k <;> simp [done, Cont.ev]

theorem regs_ev (l : List Ev) (x : Nat) (o : Out) (k : Cont) : regs (l ++ [k.ev x o]) = regs l := by
  cases k <;> simp [regs, Cont.ev]

theorem held_upd {pc : Nat → PC} {hands hands' : List Nat} (t : Nat) (p : PC)
    (held : ∀ x ∈ hands, ∃ t, x ∈ hold (pc t))
    (h : ∀ x ∈ hands', x ∈ hold p ∨ (x ∈ hands ∧ x ∉ hold (pc t))) : ∀ x ∈ hands', ∃ u, x ∈ hold (upd pc t p u) := by
  intro x hx
  rcases h x hx with h | ⟨h, h'⟩
  · exact ⟨t, by rw [upd_same]; exact h⟩
  · obtain ⟨u, hu⟩ := held x h
    refine ⟨u, ?_⟩
    rw [upd_ne]
    · exact hu
    · intro e; subst e; exact h' hu

theorem InvA.nodup {s : St} (h : InvA s) : s.obs.Nodup := by
  rw [List.nodup_iff_count]
  intro x
  have := h.cnt x
  have := h.one x
  omega

theorem InvA.hnodup {s : St} (h : InvA s) : s.hands.Nodup := by
  rw [List.nodup_iff_count]
  intro x
  have := h.cnt x
  have := h.one x
  omega

theorem InvA.dis {s : St} (h : InvA s) : ∀ x ∈ s.obs, x ∉ s.hands := by
  intro x h1 h2
  have h1 := List.count_pos_iff.2 h1
  have h2 := List.count_pos_iff.2 h2
  have := h.cnt x
  have := h.one x
  omega

theorem InvA.hreg {s : St} (h : InvA s) : ∀ x ∈ s.hands, x ∈ regs s.log := by
  intro x h2
  have h2 := List.count_pos_iff.2 h2
  have := h.cnt x
  exact List.count_pos_iff.1 (by omega)

set_option maxHeartbeats 2000000 in
theorem InvA.step {s s' : St} {t : Nat} (h : InvA s) (tr : Tr s t s') : InvA s' := by
  have nd := h.nodup
  have hnd := h.hnodup
  have dis := h.dis
  have hreg := h.hreg
  obtain ⟨cnt, one, seen, stk, wstk, wu, w0, w1, hold, held, hn, hu⟩ := h
  cases tr
  case skip => exact ⟨cnt, one, seen, stk, wstk, wu, w0, w1, hold, held, hn, hu⟩
  case call x o k _ =>
    cases k <;> constructor <;> simp only [done_ev, regs_ev, List.append_nil, Cont.pc] <;>
      first | assumption | (refine held_upd t _ held ?_; grind [LS.Promise.hold]) | grind (splits := 20) [upd, LS.Promise.hold, waits] | skip
  case wake x k _ =>
    cases k <;> constructor <;> simp only [Cont.pc] <;>
      first | assumption | (refine held_upd t _ held ?_; grind [LS.Promise.hold]) | grind (splits := 20) [upd, LS.Promise.hold, waits] | skip
  all_goals
    constructor <;> simp only [regs_snoc, done_snoc, List.append_nil] <;>
      first | assumption | (refine held_upd t _ held ?_; grind [LS.Promise.hold]) | grind (splits := 20) [upd, LS.Promise.hold, waits] | skip

end LS.Promise

import Verif.PromiseInvB
/-!
# `Future` and `Promise`: invariants of `wait`
-/

namespace LS.Promise
open LS.FastLock (upd upd_same upd_ne)

structure InvC (s : St) : Prop where
  rs : ∀ x o, s.res x = some o → .call x o ∈ s.log ∨ ∃ e, o = .exc e ∧ .ccall x e ∈ s.log
  rs1 : ∀ x o, .call x o ∈ s.log → s.res x = some o
  rs2 : ∀ x e, .ccall x e ∈ s.log → s.res x = some (.exc e)
  dead1 : ∀ x, s.dead x = true → x ∈ s.stack
  dead2 : ∀ x, s.dead x = true → x ∈ done s.log
  dead3 : ∀ x t, s.dead x = true → waits (s.pc t) ≠ some x
  un : ∀ x ∈ s.stack, .unreg x ∈ s.log → s.dead x = true
  wk : ∀ t x k, s.pc t = .wake x k → (s.res x).isSome
  ret : ∀ x o, .ret x o ∈ s.log → s.value = some o ∨ ∃ e, o = .exc e ∧ .ccall x e ∈ s.log
  tmo : ∀ x, .timeout x ∈ s.log → .unreg x ∈ s.log
  w2 : ∀ t x, s.pc t = .wait2 x → x ∉ s.obs
  ubw : s.ub = true → ∃ x, s.dead x = true ∧ (s.res x).isSome

theorem call_done {l : List Ev} {x : Nat} {o : Out} (h : Ev.call x o ∈ l) : x ∈ done l :=
  List.mem_filterMap.2 ⟨_, h, rfl⟩

theorem ccall_done {l : List Ev} {x e : Nat} (h : Ev.ccall x e ∈ l) : x ∈ done l :=
  List.mem_filterMap.2 ⟨_, h, rfl⟩

theorem unreg_done {l : List Ev} {x : Nat} (h : Ev.unreg x ∈ l) : x ∈ done l :=
  List.mem_filterMap.2 ⟨_, h, rfl⟩

theorem mem_done {l : List Ev} {x : Nat} : x ∈ done l ↔
    (∃ o, Ev.call x o ∈ l) ∨ (∃ e, Ev.ccall x e ∈ l) ∨ Ev.unreg x ∈ l := by
  constructor
  · intro h
    obtain ⟨ev, h1, h2⟩ := List.mem_filterMap.1 h
    cases ev <;> simp at h2 <;> subst h2
    · exact .inl ⟨_, h1⟩
    · exact .inr (.inl ⟨_, h1⟩)
    · exact .inr (.inr h1)
  · rintro (⟨o, h⟩ | ⟨e, h⟩ | h)
    · exact call_done h
    · exact ccall_done h
    · exact unreg_done h

theorem InvA.hdone {s : St} (h : InvA s) : ∀ x ∈ s.hands, x ∉ done s.log := by
  intro x h1 h2
  have h1 := List.count_pos_iff.2 h1
  have h2 := List.count_pos_iff.2 h2
  have := h.cnt x
  have := h.one x
  omega

theorem InvA.odone {s : St} (h : InvA s) : ∀ x ∈ s.obs, x ∉ done s.log := by
  intro x h1 h2
  have h1 := List.count_pos_iff.2 h1
  have h2 := List.count_pos_iff.2 h2
  have := h.cnt x
  have := h.one x
  omega

theorem InvA.rdone {s : St} (h : InvA s) : ∀ x ∈ done s.log, x ∈ regs s.log := by
  intro x h2
  have h2 := List.count_pos_iff.2 h2
  have := h.cnt x
  exact List.count_pos_iff.1 (by omega)

set_option maxHeartbeats 4000000 in
theorem InvC.step {s s' : St} {t : Nat} (a : InvA s) (b : InvB s) (h : InvC s) (tr : Tr s t s') : InvC s' := by
  have hdone := a.hdone
  have odone := a.odone
  have rdone := a.rdone
  have dis := a.dis
  have hold := a.hold
  have wstk := a.wstk
  have wu := a.wu
  have w0 := a.w0
  have w1 := a.w1
  have stk := a.stk
  have seen := a.seen
  have cd : ∀ x o, Ev.call x o ∈ s.log → x ∈ done s.log := fun _ _ => call_done
  have ccd : ∀ x o, Ev.ccall x o ∈ s.log → x ∈ done s.log := fun _ _ => ccall_done
  have ud : ∀ x, Ev.unreg x ∈ s.log → x ∈ done s.log := fun _ => unreg_done
  have lcall := b.lcall
  have call := b.call
  have ccall := b.ccall
  clear a b
  obtain ⟨rs, rs1, rs2, dead1, dead2, dead3, un, wk, ret, tmo, w2, ubw⟩ := h
  cases tr
  case skip => exact ⟨rs, rs1, rs2, dead1, dead2, dead3, un, wk, ret, tmo, w2, ubw⟩
  case call x o k _ =>
    cases k <;> constructor <;> simp only [Cont.ev, done_snoc, List.append_nil] <;>
      first | assumption | grind (splits := 20) [upd, waits, LS.Promise.hold] | skip
  case wake x k _ =>
    cases k <;> constructor <;> simp only [Cont.pc] <;>
      first | assumption | grind (splits := 20) [upd, waits] | skip
  all_goals
    constructor <;> simp only [done_snoc, List.append_nil] <;>
      first | assumption | grind (splits := 20) [upd, waits] | skip

end LS.Promise

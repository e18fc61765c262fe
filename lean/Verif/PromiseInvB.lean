import Verif.PromiseInv
/-!
# `Future` and `Promise`: invariants of the outcome
-/

namespace LS.Promise
open LS.FastLock (upd upd_same upd_ne)

/-- The thread runs the loop of `resolveInternal`. -/
def inLoop : PC → Bool
  | .call _ _ .loop => true
  | .wake _ .loop => true
  | .loop => true
  | _ => false

/-- The exception of a thread in the loop of `cancel`. -/
def cexc : PC → Option Nat
  | .call _ _ (.cancel _ e) => some e
  | .wake _ (.cancel _ e) => some e
  | .cancel _ e => some e
  | _ => none

structure InvB (s : St) : Prop where
  res : resols s.log = s.value.toList
  call : ∀ t x o k, s.pc t = .call x o k → (∀ l e, k ≠ .cancel l e) → s.value = some o
  ccall : ∀ t x o l e, s.pc t = .call x o (.cancel l e) → o = .exc e
  direct : ∀ t x o k, s.pc t = .call x o k → k = .ret ∨ k = .wait → s.resolving = false
  loop : ∀ t, inLoop (s.pc t) = true → s.resolving = true
  loop' : s.resolving = true → ∃ t, inLoop (s.pc t) = true
  lu : ∀ t t', inLoop (s.pc t) = true → inLoop (s.pc t') = true → t = t'
  rv : s.resolving = true → s.value ≠ none
  fin : s.resolving = false → s.value ≠ none → s.obs = []
  lcall : ∀ x o, .call x o ∈ s.log → s.value = some o
  lccall : ∀ x e, .ccall x e ∈ s.log → .cancel e ∈ s.log
  pcc : ∀ t e, cexc (s.pc t) = some e → .cancel e ∈ s.log

theorem resols_snoc (l : List Ev) (e : Ev) :
    resols (l ++ [e]) = resols l ++ (match e with | .resolve o => [o] | _ => []) := by
  cases e <;> simp [resols]

theorem loop_upd {pc : Nat → PC} (t : Nat) (p : PC) (h : ∃ t, inLoop (pc t) = true)
    (h' : inLoop (pc t) = true → inLoop p = true) : ∃ u, inLoop (upd pc t p u) = true := by
  obtain ⟨u, hu⟩ := h
  by_cases e : u = t
  · subst e; exact ⟨u, by rw [upd_same]; exact h' hu⟩
  · exact ⟨u, by rw [upd_ne _ _ e]; exact hu⟩

theorem loop_upd' {pc : Nat → PC} (t : Nat) (p : PC) 
    (h' : inLoop p = true) : ∃ u, inLoop (upd pc t p u) = true := ⟨t, by rw [upd_same]; exact h'⟩

set_option maxHeartbeats 2000000 in
theorem InvB.step {s s' : St} {t : Nat} (a : InvA s) (h : InvB s) (tr : Tr s t s') : InvB s' := by
  obtain ⟨res, call, ccall, direct, loop, loop', lu, rv, fin, lcall, lccall, pcc⟩ := h
  cases tr
  case skip => exact ⟨res, call, ccall, direct, loop, loop', lu, rv, fin, lcall, lccall, pcc⟩
  case call x o k _ =>
    cases k <;> constructor <;> simp only [Cont.ev, resols_snoc, List.append_nil] <;>
      first | assumption | (intro hr; refine loop_upd t _ (loop' hr) ?_; grind [inLoop]) | grind (splits := 20) [upd, inLoop, cexc] | skip
  case wake x k _ =>
    cases k <;> constructor <;> simp only [Cont.pc] <;>
      first | assumption | (intro hr; refine loop_upd t _ (loop' hr) ?_; grind [inLoop]) | grind (splits := 20) [upd, inLoop, cexc] | skip
  all_goals
    constructor <;> simp only [resols_snoc, List.append_nil] <;>
      first | assumption | (intro hr; refine loop_upd t _ (loop' hr) ?_; grind [inLoop]) | (intro hr; refine loop_upd' t _ ?_; grind [inLoop]) | grind (splits := 20) [upd, inLoop, cexc] | skip

end LS.Promise

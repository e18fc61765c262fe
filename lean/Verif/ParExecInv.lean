import Verif.ParExec
import Verif.FastLockProps
/-
The invariant of the parallel executor.
-/
namespace LS.ParExec
open LS.FastLock (upd upd_same upd_ne)

/-- The action which the worker has taken and not yet told the caller. -/
def hand : W → Option Nat
  | .unreg a | .inc a | .notify a => some a
  | _ => none

/-- The action which the worker has taken and not finished. -/
def held : W → Option Nat
  | .unreg a | .inc a | .notify a | .exec a => some a
  | _ => none

/-- The call whose action has been posted, while it waits. -/
def posted : C → Option Nat
  | .e4 n | .loop n _ _ | .started n _ => some n
  | _ => none

/-- The call which is going on. -/
def cur : C → Option Nat
  | .e1 n | .e2 n | .e3 n | .e4 n | .loop n _ _ | .started n _ | .fail n | .done n => some n
  | _ => none

/-- Before posting. -/
def before : C → Option Nat
  | .e1 n | .e2 n | .e3 n => some n
  | _ => none

structure Inv (s : St) : Prop where
  act : ∀ a, s.curAction = some a → posted s.c = some a ∧ s.takes a = 0 ∧ s.sig a = false
  hand : ∀ i a, hand (s.w i) = some a → posted s.c = some a ∧ s.takes a = 1 ∧ s.sig a = false ∧ s.curAction = none
  one : ∀ i j a b, ParExec.hand (s.w i) = some a → ParExec.hand (s.w j) = some b → i = j
  ntf : ∀ n, posted s.c = some n → s.callerNtf = some n
  ntf3 : ∀ n, s.c = .e3 n → s.callerNtf = some n
  sig : ∀ n, s.sig n = true → s.takes n = 1
  before : ∀ n, before s.c = some n → s.curAction = none ∧ s.takes n = 0 ∧ s.sig n = false
  cur : ∀ n, cur s.c = some n → n < s.calls ∧ s.accepted n = false ∧ s.failed n = false
  new : ∀ n, s.calls ≤ n → s.takes n = 0 ∧ s.sig n = false ∧ s.runs n = 0 ∧ s.accepted n = false ∧ s.failed n = false
  done : ∀ n, s.c = .done n → s.takes n = 1
  fail : ∀ n, s.c = .fail n → s.takes n = 0
  acc : ∀ n, s.accepted n = true → s.takes n = 1
  fld : ∀ n, s.failed n = true → s.takes n = 0
  le : ∀ n, s.takes n ≤ 1
  held : ∀ i a, held (s.w i) = some a → s.takes a = 1 ∧ s.runs a = 0
  uniq : ∀ i j a, ParExec.held (s.w i) = some a → ParExec.held (s.w j) = some a → i = j
  run : ∀ n, s.runs n ≤ s.takes n

theorem hand_held {x : W} {a : Nat} (h : hand x = some a) : held x = some a := by
  cases x <;> simp_all [hand, held]

theorem posted_cur {c : C} {n : Nat} (h : posted c = some n) : cur c = some n := by
  cases c <;> simp_all [posted, cur]

theorem before_cur {c : C} {n : Nat} (h : before c = some n) : cur c = some n := by
  cases c <;> simp_all [before, cur]

set_option maxHeartbeats 4000000 in
theorem inv_step {inf : Bool} {s s' : St} (hi : Inv s) (h : Tr inf s s') : Inv s' := by
  obtain ⟨i1, i2, i3, i4, i4', i5, i6, i7, i8, i9, i10, i11, i12, i13, i14, i15, i16⟩ := hi
  cases h with
  | top => constructor <;> (try simp only [St.go]) <;> first | assumption | grind (splits := 20) [upd, hand, held, posted, cur, before, hand_held, posted_cur, before_cur]
  | take1 => cases hc : s.curAction <;> constructor <;> (try simp only [St.go, St.take, hc]) <;> first | assumption | grind (splits := 20) [upd, hand, held, posted, cur, before, hand_held, posted_cur, before_cur]
  | reg => constructor <;> (try simp only [St.go]) <;> first | assumption | grind (splits := 20) [upd, hand, held, posted, cur, before, hand_held, posted_cur, before_cur]
  | take2 => cases hc : s.curAction <;> constructor <;> (try simp only [St.go, St.take, hc]) <;> first | assumption | grind (splits := 20) [upd, hand, held, posted, cur, before, hand_held, posted_cur, before_cur]
  | unreg => constructor <;> (try simp only [St.go]) <;> first | assumption | grind (splits := 20) [upd, hand, held, posted, cur, before, hand_held, posted_cur, before_cur]
  | woken => constructor <;> (try simp only [St.go]) <;> first | assumption | grind (splits := 20) [upd, hand, held, posted, cur, before, hand_held, posted_cur, before_cur]
  | timeout => constructor <;> (try simp only [St.go]) <;> first | assumption | grind (splits := 20) [upd, hand, held, posted, cur, before, hand_held, posted_cur, before_cur]
  | dec => constructor <;> (try simp only [St.go]) <;> first | assumption | grind (splits := 20) [upd, hand, held, posted, cur, before, hand_held, posted_cur, before_cur]
  | take3 => cases hc : s.curAction <;> constructor <;> (try simp only [St.go, St.take, hc]) <;> first | assumption | grind (splits := 20) [upd, hand, held, posted, cur, before, hand_held, posted_cur, before_cur]
  | inc => constructor <;> (try simp only [St.go]) <;> first | assumption | grind (splits := 20) [upd, hand, held, posted, cur, before, hand_held, posted_cur, before_cur]
  | notify => constructor <;> (try simp only [St.go]) <;> first | assumption | grind (splits := 20) [upd, hand, held, posted, cur, before, hand_held, posted_cur, before_cur]
  | exec => constructor <;> (try simp only [St.go]) <;> first | assumption | grind (splits := 20) [upd, hand, held, posted, cur, before, hand_held, posted_cur, before_cur]
  | chk => constructor <;> (try simp only [St.go]) <;> first | assumption | grind (splits := 20) [upd, hand, held, posted, cur, before, hand_held, posted_cur, before_cur]
  | cas => constructor <;> (try simp only [St.go]) <;> first | assumption | grind (splits := 20) [upd, hand, held, posted, cur, before, hand_held, posted_cur, before_cur]
  | stay => constructor <;> (try simp only [St.go]) <;> first | assumption | grind (splits := 20) [upd, hand, held, posted, cur, before, hand_held, posted_cur, before_cur]
  | call => have i9' := i8 s.calls (Nat.le_refl _); have hc : s.curAction = none := (by cases hc : s.curAction with | none => rfl | some a => have := i1 a hc; simp_all [posted]); constructor <;> first | assumption | grind (splits := 20) [upd, hand, held, posted, cur, before, hand_held, posted_cur, before_cur]
  | e1 => constructor <;> (try simp only [St.go]) <;> first | assumption | grind (splits := 20) [upd, hand, held, posted, cur, before, hand_held, posted_cur, before_cur]
  | e2 => constructor <;> (try simp only [St.go]) <;> first | assumption | grind (splits := 20) [upd, hand, held, posted, cur, before, hand_held, posted_cur, before_cur]
  | e3 => constructor <;> (try simp only [St.go]) <;> first | assumption | grind (splits := 20) [upd, hand, held, posted, cur, before, hand_held, posted_cur, before_cur]
  | e4 => constructor <;> (try simp only [St.go]) <;> first | assumption | grind (splits := 20) [upd, hand, held, posted, cur, before, hand_held, posted_cur, before_cur]
  | start => constructor <;> (try simp only [St.go]) <;> first | assumption | grind (splits := 20) [upd, hand, held, posted, cur, before, hand_held, posted_cur, before_cur]
  | started => constructor <;> (try simp only [St.go]) <;> first | assumption | grind (splits := 20) [upd, hand, held, posted, cur, before, hand_held, posted_cur, before_cur]
  | nostart => constructor <;> (try simp only [St.go]) <;> first | assumption | grind (splits := 20) [upd, hand, held, posted, cur, before, hand_held, posted_cur, before_cur]
  | expire => cases hc : s.curAction <;> constructor <;> (try simp only [St.go, St.take, hc]) <;> first | assumption | grind (splits := 20) [upd, hand, held, posted, cur, before, hand_held, posted_cur, before_cur]
  | fail => constructor <;> (try simp only [St.go]) <;> first | assumption | grind (splits := 20) [upd, hand, held, posted, cur, before, hand_held, posted_cur, before_cur]
  | waited => constructor <;> (try simp only [St.go]) <;> first | assumption | grind (splits := 20) [upd, hand, held, posted, cur, before, hand_held, posted_cur, before_cur]
  | done => constructor <;> (try simp only [St.go]) <;> first | assumption | grind (splits := 20) [upd, hand, held, posted, cur, before, hand_held, posted_cur, before_cur]
  | stop => constructor <;> (try simp only [St.go]) <;> first | assumption | grind (splits := 20) [upd, hand, held, posted, cur, before, hand_held, posted_cur, before_cur]
  | s1 => constructor <;> (try simp only [St.go]) <;> first | assumption | grind (splits := 20) [upd, hand, held, posted, cur, before, hand_held, posted_cur, before_cur]
  | s2 => constructor <;> (try simp only [St.go]) <;> first | assumption | grind (splits := 20) [upd, hand, held, posted, cur, before, hand_held, posted_cur, before_cur]
  | s3 => constructor <;> (try simp only [St.go]) <;> first | assumption | grind (splits := 20) [upd, hand, held, posted, cur, before, hand_held, posted_cur, before_cur]
  | spawn => constructor <;> (try simp only [St.go]) <;> first | assumption | grind (splits := 20) [upd, hand, held, posted, cur, before, hand_held, posted_cur, before_cur]
  | spawned => constructor <;> (try simp only [St.go]) <;> first | assumption | grind (splits := 20) [upd, hand, held, posted, cur, before, hand_held, posted_cur, before_cur]
  | finish => constructor <;> (try simp only [St.go]) <;> first | assumption | grind (splits := 20) [upd, hand, held, posted, cur, before, hand_held, posted_cur, before_cur]

end LS.ParExec

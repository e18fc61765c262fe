import Verif.ResPool
import Verif.FastLockProps
import Batteries.Data.List.Perm
/-
C46: the number of resources of a pool and their lending.  C100: `setLimit`.  C101: waiting operations.
-/
namespace LS.ResPool
open LS.FastLock (upd upd_same upd_ne)

/-- The resource an operation has in its hands. -/
def P.res : P → Option Nat
  | .dec r | .gv r | .del r | .rchk r | .rdel r | .rlk r => some r
  | _ => none

/-- Resources which are created and not deleted. -/
def St.Alive (s : St) (r : Nat) : Prop := r ∈ s.pool ∨ r ∈ s.held ∨ ∃ i, (s.pc i).res = some r

/-! ### Each resource has one place -/

structure Own (s : St) : Prop where
  pool : s.pool.Nodup
  held : s.held.Nodup
  dj : ∀ r, r ∈ s.pool → r ∉ s.held
  pcp : ∀ i r, (s.pc i).res = some r → r ∉ s.pool
  pch : ∀ i r, (s.pc i).res = some r → r ∉ s.held
  inj : ∀ i j r, (s.pc i).res = some r → (s.pc j).res = some r → i = j
  fp : ∀ r, r ∈ s.pool → r < s.fresh
  fh : ∀ r, r ∈ s.held → r < s.fresh
  fc : ∀ i r, (s.pc i).res = some r → r < s.fresh

structure Wq (s : St) : Prop where
  q : s.q.Nodup
  wt : ∀ i, i ∈ s.q → s.pc i = .wt
  qp : s.q ≠ [] → s.pool = []

theorem own_step {cf : Cfg} {s s' : St} (o : Own s) (w : Wq s) (h : Tr cf s s') : Own s' := by
  obtain ⟨o1, o2, o3, o4, o5, o6, o7, o8, o9⟩ := o
  obtain ⟨w1, w2, w3⟩ := w
  cases h <;> constructor <;> (try simp only [St.go]) <;> first | assumption | grind (splits := 20) [upd, P.res, List.Nodup.mem_erase_iff, List.Nodup.erase]

theorem wq_step {cf : Cfg} {s s' : St} (w : Wq s) (h : Tr cf s s') : Wq s' := by
  obtain ⟨w1, w2, w3⟩ := w
  cases h <;> constructor <;> (try simp only [St.go]) <;> first | assumption | grind (splits := 20) [upd, List.Nodup.mem_erase_iff, List.Nodup.erase]

theorem own_reach {cf : Cfg} {s : St} (h : Reach cf s) : Own s ∧ Wq s := by
  induction h with
  | init => exact ⟨by constructor <;> simp [St.init, P.res], by constructor <;> simp [St.init]⟩
  | step _ t ih => exact ⟨own_step ih.1 ih.2 t, wq_step ih.2 t⟩

/-- **C46**, lending: in every reachable state a resource is lent at most once, and a lent resource is neither idle in the pool nor in the hands of an operation
which could give it to somebody else or delete it. -/
theorem C46_one_holder {cf : Cfg} {s : St} (h : Reach cf s) :
    s.held.Nodup ∧ ∀ r ∈ s.held, r ∉ s.pool ∧ ∀ i, (s.pc i).res ≠ some r :=
  have o := (own_reach h).1
  ⟨o.held, fun r hr => ⟨fun hp => o.dj r hp hr, fun i hi => o.pch i r hi hr⟩⟩

/-- **C46**, lending: a resource which is not alive does not come back, because a resource which appears has a new number. -/
theorem C46_no_resurrection {cf : Cfg} {s s' : St} (h : Reach cf s) (t : Tr cf s s') (r : Nat) (ha : s'.Alive r) (hn : ¬ s.Alive r) :
    r = s.fresh ∧ s'.fresh = s.fresh + 1 := by
  have hq := (own_reach h).2.q
  have ho := (own_reach h).1.held
  unfold St.Alive at ha hn
  simp only [not_or, not_exists] at hn
  cases t <;> (try simp only [St.go] at ha) <;> grind (splits := 20) [upd, P.res, List.Nodup.mem_erase_iff, List.mem_of_mem_erase]

theorem fresh_mono {cf : Cfg} {s s' : St} (t : Tr cf s s') : s.fresh ≤ s'.fresh := by
  cases t <;> simp [St.go]

theorem alive_lt {cf : Cfg} {s : St} (h : Reach cf s) (r : Nat) (ha : s.Alive r) : r < s.fresh := by
  have o := (own_reach h).1
  rcases ha with ha | ha | ⟨i, ha⟩
  · exact o.fp r ha
  · exact o.fh r ha
  · exact o.fc i r ha

/-! ### Counting -/

/-- Sum of `p` over the operations below `n`. -/
def cnt (p : P → Nat) (f : Nat → P) : Nat → Nat
  | 0 => 0
  | n + 1 => cnt p f n + p (f n)

theorem cnt_upd (p : P → Nat) (f : Nat → P) (i : Nat) (v : P) : ∀ n, i < n → cnt p (upd f i v) n + p (f i) = cnt p f n + p v
  | 0, h => absurd h (by omega)
  | n + 1, h => by
    unfold cnt
    by_cases e : i = n
    · subst e
      have : ∀ m, m ≤ i → cnt p (upd f i v) m = cnt p f m := by
        intro m hm
        induction m with
        | zero => rfl
        | succ m ih => unfold cnt; rw [ih (by omega), upd_ne _ _ (by omega : m ≠ i)]
      rw [this i (Nat.le_refl i), upd_same]; omega
    · have := cnt_upd p f i v n (by omega)
      rw [upd_ne _ _ (fun x => e x.symm)]; omega

/-- 1 for an operation which may create a resource: after the test of the limit, before the decrement. -/
def P.creating : P → Nat
  | .mk | .dec _ => 1
  | _ => 0

/-- 1 for an operation with a resource which is subtracted from `curLimit`, not lent and not idle. -/
def P.charged : P → Nat
  | .gv _ | .del _ | .inc | .rchk _ | .rdel _ | .rinc | .rlk _ => 1
  | _ => 0

def P.hasRes : P → Nat
  | .dec _ | .gv _ | .del _ | .rchk _ | .rdel _ | .rlk _ => 1
  | _ => 0

def P.top : P → Nat
  | .lk | .mk | .dec _ => 1
  | _ => 0

/-- Accounting: `curLimit` is the limit minus the number of charged resources. -/
structure Acc (cf : Cfg) (s : St) : Prop where
  eq : s.lim + s.pool.length + s.held.length + cnt P.charged s.pc cf.n = cf.limit
  out : ∀ i, cf.n ≤ i → s.pc i = .idle
  nosub : ∀ i d, s.pc i ≠ .sub d

theorem acc_step {cf : Cfg} (hs : cf.set = false) {s s' : St} (w : Wq s) (a : Acc cf s) (t : Tr cf s s') : Acc cf s' := by
  obtain ⟨a1, a2, a3⟩ := a
  obtain ⟨w1, w2, w3⟩ := w
  refine ⟨?_, ?_, ?_⟩
  · cases t
    case give i r j p hi h hq =>
      have hj : s.pc j = .wt := w2 j (by simp [hq])
      have hjn : j < cf.n := by
        by_cases hjn : j < cf.n
        · exact hjn
        · have := a2 j (by omega); rw [hj] at this; cases this
      have hij : j ≠ i := by rintro rfl; rw [h] at hj; cases hj
      have e1 := cnt_upd P.charged s.pc i .idle cf.n hi
      have e2 := cnt_upd P.charged (upd s.pc i .idle) j (.gv r) cf.n hjn
      rw [upd_ne _ _ hij] at e2
      simp only [h, hj, P.charged] at e1 e2 ⊢
      omega
    case raise => simp_all
    case lower => simp_all
    case sub i d hi h => exact absurd h (a3 i d)
    all_goals (try simp only [St.go]) <;> grind [cnt_upd, P.charged, List.length_erase_of_mem, List.length_cons]
  · cases t <;> (try simp only [St.go]) <;> grind [upd]
  · cases t <;> (try simp only [St.go]) <;> grind [upd]

/-- Histories in which at most `k` operations are at the same time between the test of the limit (76) and the decrement (84). -/
inductive ReachK (cf : Cfg) (k : Nat) : St → Prop
  | init : ReachK cf k (St.init cf)
  | step {s s' : St} : ReachK cf k s → Tr cf s s' → cnt P.creating s'.pc cf.n ≤ k → ReachK cf k s'

theorem ReachK.reach {cf : Cfg} {k : Nat} {s : St} (h : ReachK cf k s) : Reach cf s := by
  induction h with
  | init => exact .init
  | step _ t _ ih => exact .step ih t

theorem cnt_idle (p : P → Nat) (hp : p .idle = 0) : ∀ n, cnt p (fun _ => .idle) n = 0
  | 0 => rfl
  | n + 1 => by unfold cnt; rw [cnt_idle p hp n, hp]

theorem acc_reach {cf : Cfg} (hs : cf.set = false) {s : St} (h : Reach cf s) : Acc cf s := by
  induction h with
  | init => exact ⟨by simp [St.init, cnt_idle P.charged rfl], by simp [St.init], by simp [St.init]⟩
  | step r t ih => exact acc_step hs (own_reach r).2 ih t

/-- The number of slots left is not smaller than the number of creating operations but `k - 1`. -/
theorem low_step {cf : Cfg} (hs : cf.set = false) {k : Nat} {s s' : St} (ac : Acc cf s) (w : Wq s) (ih : 1 + (cnt P.creating s.pc cf.n : Int) ≤ s.lim + k)
    (t : Tr cf s s') (hb : cnt P.creating s'.pc cf.n ≤ k) : 1 + (cnt P.creating s'.pc cf.n : Int) ≤ s'.lim + k := by
  obtain ⟨a1, a2, a3⟩ := ac
  obtain ⟨w1, w2, w3⟩ := w
  cases t
  case give i r j p hi h hq =>
    have hj : s.pc j = .wt := w2 j (by simp [hq])
    have hjn : j < cf.n := by
      by_cases hjn : j < cf.n
      · exact hjn
      · have := a2 j (by omega); rw [hj] at this; cases this
    have hij : j ≠ i := by rintro rfl; rw [h] at hj; cases hj
    have e1 := cnt_upd P.creating s.pc i .idle cf.n hi
    have e2 := cnt_upd P.creating (upd s.pc i .idle) j (.gv r) cf.n hjn
    rw [upd_ne _ _ hij] at e2
    simp only [h, hj, P.creating] at e1 e2 ⊢
    omega
  case raise => simp_all
  case lower => simp_all
  case sub i d hi h => exact absurd h (a3 i d)
  all_goals (try simp only [St.go] at hb ⊢) <;> grind [cnt_upd, P.creating]

theorem low {cf : Cfg} (hs : cf.set = false) {k : Nat} (hk : 1 ≤ k) {s : St} (h : ReachK cf k s) : 1 + (cnt P.creating s.pc cf.n : Int) ≤ s.lim + k := by
  induction h with
  | init => simp [St.init, cnt_idle P.creating rfl]; omega
  | step r t hb ih => exact low_step hs (acc_reach hs r.reach) (own_reach r.reach).2 ih t hb

theorem cnt_le {p q : P → Nat} (h : ∀ x, p x ≤ q x) (f : Nat → P) : ∀ n, cnt p f n ≤ cnt q f n
  | 0 => Nat.le_refl _
  | n + 1 => Nat.add_le_add (cnt_le h f n) (h _)

theorem cnt_add (p q : P → Nat) (f : Nat → P) : ∀ n, cnt (fun x => p x + q x) f n = cnt p f n + cnt q f n
  | 0 => rfl
  | n + 1 => by unfold cnt; rw [cnt_add p q f n]; omega

theorem len_res (f : Nat → P) : ∀ n, ((List.range n).filterMap (fun i => (f i).res)).length = cnt P.hasRes f n
  | 0 => rfl
  | n + 1 => by
    rw [List.range_succ, List.filterMap_append, List.length_append, len_res f n]
    show _ = cnt P.hasRes f n + P.hasRes (f n)
    congr 1
    cases h : f n <;> simp [P.res, P.hasRes, h]

/-- A list of different resources which are alive is not longer than what `curLimit` tells. -/
theorem alive_len {cf : Cfg} {s : St} (a : Acc cf s) (R : List Nat) (hR : R.Nodup) (ha : ∀ r ∈ R, s.Alive r) :
    (R.length : Int) + s.lim ≤ cf.limit + cnt P.creating s.pc cf.n := by
  have hsub : R ⊆ s.pool ++ s.held ++ (List.range cf.n).filterMap (fun i => (s.pc i).res) := by
    intro r hr
    rcases ha r hr with hp | hp | ⟨i, hi⟩
    · simp [hp]
    · simp [hp]
    · have hin : i < cf.n := by
        by_cases hin : i < cf.n
        · exact hin
        · have := a.out i (by omega); rw [this] at hi; cases hi
      simp only [List.mem_append, List.mem_filterMap, List.mem_range]
      exact .inr ⟨i, hin, hi⟩
  have := (List.subperm_of_subset hR hsub).length_le
  simp only [List.length_append, len_res] at this
  have h2 : cnt P.hasRes s.pc cf.n ≤ cnt P.charged s.pc cf.n + cnt P.creating s.pc cf.n := by
    rw [← cnt_add]
    exact cnt_le (fun x => by cases x <;> simp [P.hasRes, P.charged, P.creating]) _ _
  have := a.eq
  omega

/-- **C46**, number, partial: as long as at most `k` operations create a resource at the same time, at most `limit + k - 1` resources are alive; in particular the
limit holds when creations do not overlap.  Missing: the bound `limit` for all histories is false, see `C46_limit_violated`; here without `setLimit` (C100). -/
theorem C46_limit_partial {cf : Cfg} (hs : cf.set = false) {k : Nat} (hk : 1 ≤ k) {s : St} (h : ReachK cf k s)
    (R : List Nat) (hR : R.Nodup) (ha : ∀ r ∈ R, s.Alive r) : R.length + 1 ≤ cf.limit + k := by
  have := alive_len (acc_reach hs h.reach) R hR ha
  have := low hs hk h
  omega

theorem C46_limit_serial {cf : Cfg} (hs : cf.set = false) {s : St} (h : ReachK cf 1 s)
    (R : List Nat) (hR : R.Nodup) (ha : ∀ r ∈ R, s.Alive r) : R.length ≤ cf.limit := by
  have := C46_limit_partial hs (by omega) h R hR ha
  omega

/-! ### Waiting -/

/-- No operation waits while a resource is idle in the pool. -/
theorem C101_no_idle {cf : Cfg} {s : St} (h : Reach cf s) (hq : s.q ≠ []) : s.pool = [] := (own_reach h).2.qp hq

theorem nodel {cf : Cfg} (hs : cf.set = false) {s : St} (h : ReachK cf 1 s) : (∀ i r, s.pc i ≠ .rdel r) ∧ ∀ i, s.pc i ≠ .rinc := by
  induction h with
  | init => simp [St.init]
  | step r t hb ih =>
    have hlow := low hs (Nat.le_refl 1) r
    cases t <;> (try simp only [St.go]) <;> grind [upd]

/-- The invariant behind `C101_not_stranded_partial`. -/
theorem fed {cf : Cfg} (hs : cf.set = false) (ht : cf.throws = false) (hl : 1 ≤ cf.limit) {s : St} (h : ReachK cf 1 s) :
    s.q ≠ [] → 1 ≤ s.held.length + cnt P.charged s.pc cf.n + cnt P.top s.pc cf.n := by
  induction h with
  | init => simp [St.init]
  | step r t hb ih =>
    rename_i s s'
    have hlow := low hs (Nat.le_refl 1) r
    obtain ⟨a1, a2, a3⟩ := acc_reach hs r.reach
    obtain ⟨w1, w2, w3⟩ := (own_reach r.reach).2
    cases t
    case give i r j p hi h hq =>
      have hj : s.pc j = .wt := w2 j (by simp [hq])
      have hjn : j < cf.n := by
        by_cases hjn : j < cf.n
        · exact hjn
        · have := a2 j (by omega); rw [hj] at this; cases this
      have hij : j ≠ i := by rintro rfl; rw [h] at hj; cases hj
      have e1 := cnt_upd P.charged s.pc i .idle cf.n hi
      have e2 := cnt_upd P.charged (upd s.pc i .idle) j (.gv r) cf.n hjn
      rw [upd_ne _ _ hij] at e2
      simp only [h, hj, P.charged] at e1 e2 ⊢
      omega
    case raise => simp_all
    case lower => simp_all
    case sub i d hi h => exact absurd h (a3 i d)
    case rinc i hi h => exact absurd h ((nodel hs r).2 i)
    all_goals (try simp only [St.go] at hb ⊢) <;> grind [cnt_upd, P.charged, P.top, List.length_erase_of_mem, List.ne_nil_of_mem]

/-- **C101**, partial: when nothing moves any more and somebody still waits, then somebody holds a resource, whose release will be given to the oldest waiting
operation.  Here creations do not overlap, do not throw, and `setLimit` is not called; otherwise false, see `C101_stranded_violated` and `C101_throw_violated`. -/
theorem C101_not_stranded_partial {cf : Cfg} (hs : cf.set = false) (ht : cf.throws = false) (hl : 1 ≤ cf.limit) {s : St} (h : ReachK cf 1 s)
    (hq : s.q ≠ []) (hi : ∀ i, s.pc i = .idle ∨ s.pc i = .wt) : s.held ≠ [] := by
  have := fed hs ht hl h hq
  have z : ∀ p : P → Nat, p .idle = 0 → p .wt = 0 → ∀ n, cnt p s.pc n = 0 := by
    intro p h1 h2 n
    induction n with
    | zero => rfl
    | succ n ih => show cnt p s.pc n + p (s.pc n) = 0; rcases hi n with e | e <;> rw [e, ih] <;> omega
  rw [z _ rfl rfl, z _ rfl rfl] at this
  intro e
  rw [e] at this
  simp at this

/-- **C101**: the oldest waiting operation is the one which gets a returned resource. -/
theorem C101_oldest {cf : Cfg} {s s' : St} (t : Tr cf s s') (j r : Nat) (hn : s.pc j ≠ .gv r) (hg : s'.pc j = .gv r) : ∃ p, s.q = p ++ [j] := by
  cases t <;> (try simp only [St.go] at hg) <;> grind [upd]

/-! ### Witnesses -/

/-- One step given by a function, for the histories below. -/
theorem via {cf : Cfg} {s s' t : St} (h : Reach cf s) (e : Tr cf s t) (he : t = s') : Reach cf s' := he ▸ .step h e

/-- **C46**, number, negation: two operations pass the test of the limit before either of them decrements it; a pool with limit 1 has two resources, both lent. -/
theorem C46_limit_violated : ∃ s, Reach { limit := 1, n := 2, throws := false, set := false } s ∧ s.held = [1, 0] ∧ s.lim = -1 := by
  have h := Reach.init (cf := { limit := 1, n := 2, throws := false, set := false })
  have h := Reach.step h (.acquire _ 0 (by decide) rfl)
  have h := Reach.step h (.acquire _ 1 (by decide) rfl)
  have h := Reach.step h (.room _ 0 (by decide) rfl rfl (by decide))
  have h := Reach.step h (.room _ 1 (by decide) rfl rfl (by decide))
  have h := Reach.step h (.create _ 0 (by decide) rfl)
  have h := Reach.step h (.create _ 1 (by decide) rfl)
  have h := Reach.step h (.dec _ 0 0 (by decide) rfl)
  have h := Reach.step h (.dec _ 1 1 (by decide) rfl)
  exact ⟨_, h, rfl, rfl⟩

/-- **C101**, negation: after an overcommitment both holders see the negative limit and both delete their resource; the waiting operation 2 stays in the queue of a
pool which has no resource at all, although the limit allows one, and nothing runs which would wake it. -/
theorem C101_stranded_violated : ∃ s, Reach { limit := 1, n := 3, throws := false, set := false } s ∧ s.q = [2] ∧ s.lim = 1 ∧ s.held = [] ∧ s.pool = [] ∧
    ∀ i < 3, s.pc i = .idle ∨ i = 2 := by
  have h := Reach.init (cf := { limit := 1, n := 3, throws := false, set := false })
  have h := Reach.step h (.acquire _ 0 (by decide) rfl)
  have h := Reach.step h (.acquire _ 1 (by decide) rfl)
  have h := Reach.step h (.room _ 0 (by decide) rfl rfl (by decide))
  have h := Reach.step h (.room _ 1 (by decide) rfl rfl (by decide))
  have h := Reach.step h (.create _ 0 (by decide) rfl)
  have h := Reach.step h (.create _ 1 (by decide) rfl)
  have h := Reach.step h (.dec _ 0 0 (by decide) rfl)
  have h := Reach.step h (.dec _ 1 1 (by decide) rfl)
  have h := Reach.step h (.acquire _ 2 (by decide) rfl)
  have h := Reach.step h (.wait _ 2 (by decide) rfl rfl (by decide))
  have h := Reach.step h (.release _ 0 0 (by decide) rfl (by decide))
  have h := Reach.step h (.release _ 1 1 (by decide) rfl (by decide))
  have h := Reach.step h (.rchk _ 0 0 (by decide) rfl)
  have h := Reach.step h (.rchk _ 1 1 (by decide) rfl)
  have h := Reach.step h (.rdel _ 0 0 (by decide) rfl)
  have h := Reach.step h (.rdel _ 1 1 (by decide) rfl)
  have h := Reach.step h (.rinc _ 0 (by decide) rfl)
  have h := Reach.step h (.rinc _ 1 (by decide) rfl)
  refine ⟨_, h, rfl, rfl, rfl, rfl, fun i hi => ?_⟩
  match i, hi with
  | 0, _ => exact .inl rfl
  | 1, _ => exact .inl rfl
  | 2, _ => exact .inr rfl

/-- **C101**, negation without overlapping creations: an idle resource is expired, operation 0 deletes it and fails to create another one; operation 1, which came
in between, waits although nobody holds anything. -/
theorem C101_throw_violated : ∃ s, ReachK { limit := 1, n := 2, set := false } 1 s ∧ s.q = [1] ∧ s.lim = 1 ∧ s.held = [] ∧ s.pool = [] ∧ s.pc 0 = .idle := by
  have h := ReachK.init (cf := { limit := 1, n := 2, set := false }) (k := 1)
  have h := ReachK.step h (.acquire _ 0 (by decide) rfl) (by decide)
  have h := ReachK.step h (.room _ 0 (by decide) rfl rfl (by decide)) (by decide)
  have h := ReachK.step h (.create _ 0 (by decide) rfl) (by decide)
  have h := ReachK.step h (.dec _ 0 0 (by decide) rfl) (by decide)
  have h := ReachK.step h (.release _ 0 0 (by decide) rfl (by decide)) (by decide)
  have h := ReachK.step h (.rchk _ 0 0 (by decide) rfl) (by decide)
  have h := ReachK.step h (.store _ 0 0 (by decide) rfl rfl) (by decide)
  have h := ReachK.step h (.acquire _ 0 (by decide) rfl) (by decide)
  have h := ReachK.step h (.popExp _ 0 0 [] (by decide) rfl rfl) (by decide)
  have h := ReachK.step h (.acquire _ 1 (by decide) rfl) (by decide)
  have h := ReachK.step h (.wait _ 1 (by decide) rfl rfl (by decide)) (by decide)
  have h := ReachK.step h (.del _ 0 0 (by decide) rfl) (by decide)
  have h := ReachK.step h (.inc _ 0 (by decide) rfl) (by decide)
  have h := ReachK.step h (.room _ 0 (by decide) rfl rfl (by decide)) (by decide)
  have h := ReachK.step h (.throw _ 0 (by decide) rfl rfl) (by decide)
  exact ⟨_, h, rfl, rfl, rfl, rfl, rfl⟩

/-- Example for the positive results: limit 1, operation 1 waits, operation 0 returns its resource and 1 gets it. -/
example : ∃ s, ReachK { limit := 1, n := 2, set := false, throws := false } 1 s ∧ s.held = [0] ∧ s.q = [] ∧ s.fresh = 1 ∧ s.lim = 0 := by
  have h := ReachK.init (cf := { limit := 1, n := 2, set := false, throws := false }) (k := 1)
  have h := ReachK.step h (.acquire _ 0 (by decide) rfl) (by decide)
  have h := ReachK.step h (.room _ 0 (by decide) rfl rfl (by decide)) (by decide)
  have h := ReachK.step h (.create _ 0 (by decide) rfl) (by decide)
  have h := ReachK.step h (.dec _ 0 0 (by decide) rfl) (by decide)
  have h := ReachK.step h (.acquire _ 1 (by decide) rfl) (by decide)
  have h := ReachK.step h (.wait _ 1 (by decide) rfl rfl (by decide)) (by decide)
  have h := ReachK.step h (.release _ 0 0 (by decide) rfl (by decide)) (by decide)
  have h := ReachK.step h (.rchk _ 0 0 (by decide) rfl) (by decide)
  have h := ReachK.step h (.give _ 0 0 1 [] (by decide) rfl rfl) (by decide)
  have h := ReachK.step h (.given _ 1 0 (by decide) rfl) (by decide)
  exact ⟨_, h, rfl, rfl, rfl, rfl⟩

/-! ### `setLimit` -/

/-- **C100**, negation: lowering the limit from 2 to 1 while nothing is in use changes nothing (the argument of the subtraction is `limit - curLimit`, which is 0), and
two resources are created afterwards, one after the other. -/
theorem C100_lower_violated : ∃ s, ReachK { limit := 2, n := 1, throws := false } 1 s ∧ s.held = [1, 0] := by
  have h := ReachK.init (cf := { limit := 2, n := 1, throws := false }) (k := 1)
  have h := ReachK.step h (.lower _ 0 1 rfl (by decide) (by decide) rfl) (by decide)
  have h := ReachK.step h (.sub _ 0 0 (by decide) rfl) (by decide)
  have h := ReachK.step h (.acquire _ 0 (by decide) rfl) (by decide)
  have h := ReachK.step h (.room _ 0 (by decide) rfl rfl (by decide)) (by decide)
  have h := ReachK.step h (.create _ 0 (by decide) rfl) (by decide)
  have h := ReachK.step h (.dec _ 0 0 (by decide) rfl) (by decide)
  have h := ReachK.step h (.acquire _ 0 (by decide) rfl) (by decide)
  have h := ReachK.step h (.room _ 0 (by decide) rfl rfl (by decide)) (by decide)
  have h := ReachK.step h (.create _ 0 (by decide) rfl) (by decide)
  have h := ReachK.step h (.dec _ 0 1 (by decide) rfl) (by decide)
  exact ⟨_, h, rfl⟩

/-- **C100**, negation: `setLimit(2)` called twice on a pool with limit 1 leaves room for three resources, because the new limit is not stored. -/
theorem C100_raise_violated : ∃ s, ReachK { limit := 1, n := 1, throws := false } 1 s ∧ s.held = [] ∧ s.pool = [] ∧ s.lim = 3 := by
  have h := ReachK.init (cf := { limit := 1, n := 1, throws := false }) (k := 1)
  have h := ReachK.step h (.raise _ 2 rfl (by decide)) (by decide)
  have h := ReachK.step h (.raise _ 2 rfl (by decide)) (by decide)
  exact ⟨_, h, rfl, rfl, rfl⟩

/-- Histories with a single call of `setLimit`, which raises the limit to `m`; creations do not overlap. -/
inductive Raised (cf : Cfg) (m : Nat) : St → Prop
  | raise {s : St} : ReachK { cf with set := false } 1 s → Tr { cf with set := true } s { s with lim := s.lim + (m - cf.limit) } →
      Raised cf m { s with lim := s.lim + (m - cf.limit) }
  | step {s s' : St} : Raised cf m s → Tr { cf with set := false } s s' → cnt P.creating s'.pc cf.n ≤ 1 → Raised cf m s'

theorem tr_limit {cf cf' : Cfg} (h1 : cf.n = cf'.n) (h2 : cf.throws = cf'.throws) (hs : cf.set = false) {s s' : St} (t : Tr cf s s') : Tr cf' s s' := by
  cases t with
  | raise _ h => rw [hs] at h; cases h
  | lower _ _ h => rw [hs] at h; cases h
  | acquire _ hi h => exact .acquire _ _ (h1 ▸ hi) h
  | pop _ _ _ hi h hp => exact .pop _ _ _ _ (h1 ▸ hi) h hp
  | popExp _ _ _ hi h hp => exact .popExp _ _ _ _ (h1 ▸ hi) h hp
  | room _ hi h hp hl => exact .room _ _ (h1 ▸ hi) h hp hl
  | create _ hi h => exact .create _ _ (h1 ▸ hi) h
  | throw _ hi h ht => exact .throw _ _ (h1 ▸ hi) h (h2 ▸ ht)
  | dec _ _ hi h => exact .dec _ _ _ (h1 ▸ hi) h
  | wait _ hi h hp hl => exact .wait _ _ (h1 ▸ hi) h hp hl
  | timeout _ hi h hq => exact .timeout _ _ (h1 ▸ hi) h hq
  | given _ _ hi h => exact .given _ _ _ (h1 ▸ hi) h
  | givenExp _ _ hi h => exact .givenExp _ _ _ (h1 ▸ hi) h
  | del _ _ hi h => exact .del _ _ _ (h1 ▸ hi) h
  | inc _ hi h => exact .inc _ _ (h1 ▸ hi) h
  | release _ _ hi h hr => exact .release _ _ _ (h1 ▸ hi) h hr
  | rchk _ _ hi h => exact .rchk _ _ _ (h1 ▸ hi) h
  | rdel _ _ hi h => exact .rdel _ _ _ (h1 ▸ hi) h
  | rinc _ hi h => exact .rinc _ _ (h1 ▸ hi) h
  | store _ _ hi h hq => exact .store _ _ _ (h1 ▸ hi) h hq
  | give _ _ _ _ hi h hq => exact .give _ _ _ _ _ (h1 ▸ hi) h hq
  | sub _ _ hi h => exact .sub _ _ _ (h1 ▸ hi) h

theorem raised_inv {cf : Cfg} {m : Nat} (hm : cf.limit < m) {s : St} (h : Raised cf m s) :
    Own s ∧ Wq s ∧ Acc { cf with set := false, limit := m } s ∧ 1 + (cnt P.creating s.pc cf.n : Int) ≤ s.lim + 1 := by
  induction h with
  | raise r _ =>
    have o := own_reach r.reach
    have a := acc_reach rfl r.reach
    have l := low rfl (Nat.le_refl 1) r
    refine ⟨⟨o.1.1, o.1.2, o.1.3, o.1.4, o.1.5, o.1.6, o.1.7, o.1.8, o.1.9⟩, ⟨o.2.1, o.2.2, o.2.3⟩, ⟨?_, a.2, a.3⟩, ?_⟩
    · have := a.eq; simp only at this ⊢; omega
    · simp only at l ⊢; omega
  | step r t hb ih =>
    have t' : Tr { cf with set := false, limit := m } _ _ := tr_limit (cf := { cf with set := false }) (cf' := { cf with set := false, limit := m }) rfl rfl rfl t
    exact ⟨own_step ih.1 ih.2.1 t, wq_step ih.2.1 t, acc_step rfl ih.2.1 ih.2.2.1 t', low_step (cf := { cf with set := false, limit := m }) (k := 1) rfl ih.2.2.1 ih.2.1 ih.2.2.2 t' hb⟩

/-- **C100**, partial: after a single raise of the limit to `m` at any moment, at most `m` resources are alive.  Missing: a second call and lowering, see the
negations above. -/
theorem C100_raise_once_partial {cf : Cfg} {m : Nat} (hm : cf.limit < m) {s : St} (h : Raised cf m s)
    (R : List Nat) (hR : R.Nodup) (ha : ∀ r ∈ R, s.Alive r) : R.length ≤ m := by
  have i := raised_inv hm h
  have := alive_len i.2.2.1 R hR ha
  have := i.2.2.2
  simp only at *
  omega

/-- Example: raised from 1 to 2 after the first resource was lent; the second one is created. -/
example : ∃ s, Raised { limit := 1, n := 1, throws := false } 2 s ∧ s.held = [1, 0] := by
  have h := ReachK.init (cf := { limit := 1, n := 1, throws := false, set := false }) (k := 1)
  have h := ReachK.step h (.acquire _ 0 (by decide) rfl) (by decide)
  have h := ReachK.step h (.room _ 0 (by decide) rfl rfl (by decide)) (by decide)
  have h := ReachK.step h (.create _ 0 (by decide) rfl) (by decide)
  have h := ReachK.step h (.dec _ 0 0 (by decide) rfl) (by decide)
  have h := Raised.raise (cf := { limit := 1, n := 1, throws := false }) (m := 2) h (.raise _ 2 rfl (by decide))
  have h := Raised.step h (.acquire _ 0 (by decide) rfl) (by decide)
  have h := Raised.step h (.room _ 0 (by decide) rfl rfl (by decide)) (by decide)
  have h := Raised.step h (.create _ 0 (by decide) rfl) (by decide)
  have h := Raised.step h (.dec _ 0 1 (by decide) rfl) (by decide)
  exact ⟨_, h, rfl⟩
end LS.ResPool

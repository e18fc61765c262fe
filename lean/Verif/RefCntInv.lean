import Verif.RefCnt
import Verif.FastLockProps
/-
Invariant of the counted pointers.
-/
namespace LS.RefCnt
open LS.FastLock (upd upd_same upd_ne)

/-- Number of `i < n` with `f i = o`. -/
def cE (f : Nat → Nat) (o : Nat) : Nat → Nat
  | 0 => 0
  | n + 1 => cE f o n + (if f n = o then 1 else 0)

theorem cE_out (f : Nat → Nat) (o i v : Nat) : ∀ n, n ≤ i → cE (upd f i v) o n = cE f o n
  | 0, _ => rfl
  | n + 1, h => by
    show cE (upd f i v) o n + _ = cE f o n + _
    rw [cE_out f o i v n (by omega), upd_ne _ _ (by omega)]

theorem cE_upd (f : Nat → Nat) (o i v : Nat) : ∀ n, i < n → cE (upd f i v) o n + (if f i = o then 1 else 0) = cE f o n + (if v = o then 1 else 0)
  | 0, h => by omega
  | n + 1, h => by
    show cE (upd f i v) o n + (if upd f i v n = o then 1 else 0) + _ = cE f o n + (if f n = o then 1 else 0) + _
    by_cases e : i = n
    · subst e; rw [cE_out f o i v i (Nat.le_refl _), upd_same]; omega
    · have := cE_upd f o i v n (by omega)
      rw [upd_ne _ _ (fun x => e x.symm)]; omega

theorem cE_pos (f : Nat → Nat) (o i : Nat) : ∀ n, i < n → f i = o → 0 < cE f o n
  | 0, h, _ => by omega
  | n + 1, h, e => by
    show 0 < cE f o n + _
    by_cases c : i = n
    · subst c; simp [e]
    · have := cE_pos f o i n (by omega) e; omega

theorem cE_zero (f : Nat → Nat) (o : Nat) : ∀ n, (∀ i, i < n → f i ≠ o) → cE f o n = 0
  | 0, _ => rfl
  | n + 1, h => by
    show cE f o n + _ = 0
    rw [cE_zero f o n (fun i hi => h i (by omega)), if_neg (h n (by omega))]

/-- The thread is about to count pointer `v`. -/
def P.adding (v : Nat) : P → Bool
  | .cadd x _ | .nadd x _ => x == v
  | _ => false

def P.isAset : P → Bool
  | .aset _ _ => true
  | _ => false

/-- The operation changes pointer `v`. -/
def P.writes (v : Nat) : P → Bool
  | .idle => false
  | .cpy x _ | .cadd x _ | .new x _ | .nadd x _ | .asg x _ | .aset x _ | .wt x | .wd x => x == v
  | .mset x y => x == v || y == v

structure Inv (cf : Cfg) (s : St) : Prop where
  cnt : ∀ o, o ≠ 0 → s.cnt o = cE s.own o cf.nv + cE s.pend o cf.nt
  ownb : ∀ v, s.own v ≠ 0 → v < cf.nv
  wrb : ∀ v, s.wl v ≠ none → v < cf.nv
  pcb : ∀ t, s.pc t ≠ .idle → t < cf.nt
  own : ∀ v, s.own v ≠ 0 → s.ptr v = s.own v ∧ s.vl v = true ∧ (s.vp v = .no ∨ s.vp v = .rel) ∧ s.st (s.own v) = .alive
  ptr : ∀ v, s.vl v = true → s.ptr v ≠ 0 → (s.vp v = .no ∨ s.vp v = .rel) → s.own v ≠ s.ptr v → s.wl v ≠ none ∧ ∀ t, s.wl v = some t → (s.pc t).adding v = true
  pend : ∀ t x y, s.pc t = .aset x y → s.pend t = s.ptr y
  npend : ∀ t, s.pend t ≠ 0 → (s.pc t).isAset = true
  pal : ∀ t, s.pend t ≠ 0 → s.st (s.pend t) = .alive
  zero : ∀ v o, s.vp v = .nulk o ∨ s.vp v = .kll o → o ≠ 0 ∧ s.st o = .alive ∧ s.cnt o = 0
  uniq : ∀ v v' o, (s.vp v = .nulk o ∨ s.vp v = .kll o) → (s.vp v' = .nulk o ∨ s.vp v' = .kll o) → v = v'
  dst : ∀ v o, s.vp v = .dst o → s.st o = .dying ∨ s.st o = .freed
  nptr : ∀ v o, s.vp v = .kll o ∨ s.vp v = .dst o → s.ptr v = 0
  busy : ∀ v, s.vp v ≠ .no → s.vl v = true ∧ (s.dt v = true ∨ s.wl v ≠ none)
  dtv : ∀ v, s.dt v = true → s.vl v = true ∧ (cf.home v ≠ 0 → s.st (cf.home v) = .dying) ∧ (cf.home v = 0 → s.wl v ≠ none ∧ ∀ t, s.wl v = some t → s.pc t = .wd v)
  wrd : ∀ t v, v ∈ s.rd t → s.wl v = none
  rlive : ∀ t v, v ∈ s.rd t → s.vl v = true ∧ s.vp v = .no ∧ s.dt v = false ∧ s.own v = s.ptr v
  halive : ∀ t v, v ∈ s.rd t ∨ s.wl v = some t → cf.home v ≠ 0 → s.st (cf.home v) = .alive
  guard : ∀ t v, v ∈ s.rd t ∨ s.wl v = some t → cf.home v ≠ 0 → ∃ g ∈ s.rd t, s.ptr g = cf.home v
  wlp : ∀ v t, s.wl v = some t → (s.pc t).writes v = true
  pidle : ∀ t, s.pc t = .idle → s.rd t = []
  pcpy : ∀ t x y, s.pc t = .cpy x y → s.wl x = some t ∧ y ∈ s.rd t ∧ s.vl x = false ∧ cf.home x = 0
  pcadd : ∀ t x y, s.pc t = .cadd x y → s.wl x = some t ∧ y ∈ s.rd t ∧ s.vl x = true ∧ s.ptr x = s.ptr y ∧ s.own x = 0 ∧ s.vp x = .no
  pnew : ∀ t x o, s.pc t = .new x o → s.wl x = some t ∧ s.own x = 0 ∧ s.vp x = .no ∧ (s.vl x = true → s.ptr x = 0) ∧ (s.vl x = false → cf.home x = 0)
  pnadd : ∀ t x o, s.pc t = .nadd x o → s.wl x = some t ∧ s.own x = 0 ∧ s.vp x = .no ∧ s.vl x = true ∧ s.ptr x = o
  newo : ∀ t x o, s.pc t = .new x o ∨ s.pc t = .nadd x o → o ≠ 0 ∧ s.st o = .alive ∧ s.cnt o = 0
  newz : ∀ t x o, s.pc t = .new x o ∨ s.pc t = .nadd x o → ∀ v, s.vp v ≠ .nulk o ∧ s.vp v ≠ .kll o
  newu : ∀ t t' x x' o, s.pc t = .new x o ∨ s.pc t = .nadd x o → s.pc t' = .new x' o ∨ s.pc t' = .nadd x' o → t = t'
  pasg : ∀ t x y, s.pc t = .asg x y → s.wl x = some t ∧ y ∈ s.rd t ∧ s.vl x = true ∧ s.vp x = .no
  paset : ∀ t x y, s.pc t = .aset x y → s.wl x = some t ∧ y ∈ s.rd t ∧ s.vl x = true ∧ (s.vp x = .no → s.ptr x = 0)
  pmset : ∀ t x y, s.pc t = .mset x y → s.wl x = some t ∧ s.wl y = some t ∧ x ≠ y ∧ s.vl x = true ∧ s.vl y = true ∧ s.vp y = .no ∧ (s.vp x = .no → s.ptr x = 0)
  pwt : ∀ t x, s.pc t = .wt x → s.wl x = some t ∧ s.vl x = true ∧ (s.vp x = .no → s.ptr x = 0)
  pwd : ∀ t x, s.pc t = .wd x → s.wl x = some t ∧ cf.home x = 0 ∧ (s.vl x = true → s.dt x = true)
  hm : ∀ v, cf.home v ≠ 0 → s.vl v = true → s.st (cf.home v) = .alive ∨ s.st (cf.home v) = .dying
  hd : ∀ v, cf.home v ≠ 0 → s.vl v = true → s.st (cf.home v) = .dying → s.dt v = true
  dnul : ∀ v, s.dt v = true → s.vp v = .no → s.ptr v = 0
  zalive : ∀ o, s.st o = .alive → s.cnt o = 0 → (∃ v, s.vp v = .nulk o ∨ s.vp v = .kll o) ∨ ∃ t x, s.pc t = .new x o ∨ s.pc t = .nadd x o
  dying : ∀ o, s.st o = .dying → ∃ v, s.vp v = .dst o
  st0 : s.st 0 = .none
  cz : ∀ o, s.st o ≠ .alive → s.cnt o = 0
  logn : s.log.Nodup
  logm : ∀ o, o ∈ s.log ↔ s.st o = .dying ∨ s.st o = .freed

theorem Inv.init (cf : Cfg) : Inv cf {} := by
  constructor <;> simp
  intro o ho
  rw [cE_zero _ _ _ (fun i _ h => ho h.symm), cE_zero _ _ _ (fun i _ h => ho h.symm)]

/-- Two values of a function at most one of which is counted. -/
theorem Inv.noOwn {cf : Cfg} {s : St} (i : Inv cf s) {o v : Nat} (ho : o ≠ 0) (hc : s.cnt o = 0) : s.own v ≠ o := by
  intro h
  have := i.cnt o ho
  have := cE_pos s.own o v cf.nv (i.ownb v (by omega)) h
  omega

theorem Inv.noPend {cf : Cfg} {s : St} (i : Inv cf s) {o t : Nat} (ho : o ≠ 0) (hc : s.cnt o = 0) : s.pend t ≠ o := by
  intro h
  have := i.cnt o ho
  have hp := i.npend t (by omega)
  have := cE_pos s.pend o t cf.nt (i.pcb t (by intro e; simp [e, P.isAset] at hp)) h
  omega

theorem Inv.relOwn {cf : Cfg} {s : St} (i : Inv cf s) {v : Nat} (hv : s.vp v = .rel) (hp : s.ptr v ≠ 0) : s.own v = s.ptr v := by
  refine Classical.byContradiction fun hn => ?_
  obtain ⟨h1, h2⟩ := i.ptr v (i.busy v (by simp [hv])).1 hp (.inr hv) hn
  obtain ⟨t, ht⟩ := Option.ne_none_iff_exists'.1 h1
  have h3 := h2 t ht
  cases h : s.pc t <;> simp [h, P.adding] at h3
  · subst h3; have := (i.pcadd _ _ _ h).2.2.2.2.2; simp [hv] at this
  · subst h3; have := (i.pnadd _ _ _ h).2.2.1; simp [hv] at this

theorem Inv.locked {cf : Cfg} {s : St} (i : Inv cf s) {v : Nat} (hw : s.wl v = none) (hd : s.dt v = false) : s.vp v = .no := by
  refine Classical.byContradiction fun hn => ?_
  have := (i.busy v hn).2
  simp [hw, hd] at this

theorem Inv.lockOwn {cf : Cfg} {s : St} (i : Inv cf s) {v : Nat} (hv : s.vl v = true) (hw : s.wl v = none) (hd : s.dt v = false) : s.own v = s.ptr v := by
  refine Classical.byContradiction fun hn => ?_
  by_cases hp : s.ptr v = 0
  · have := i.own v (by omega)
    omega
  · exact (i.ptr v hv hp (.inl (i.locked hw hd)) hn).1 hw

theorem Inv.killed {cf : Cfg} {s : St} (i : Inv cf s) {v o u : Nat} (hv : s.vp v = .kll o) (hu : cf.home u = o) : s.wl u = none ∧ s.dt u = false ∧ ∀ t, u ∉ s.rd t := by
  obtain ⟨h0, h1, h2⟩ := i.zero v o (.inr hv)
  have key : ∀ t, ¬(u ∈ s.rd t ∨ s.wl u = some t) := fun t ht => by
    obtain ⟨g, hg, hp⟩ := i.guard t u ht (by omega)
    exact i.noOwn h0 h2 (v := g) (by rw [(i.rlive t g hg).2.2.2]; omega)
  refine ⟨?_, ?_, fun t ht => key t (.inl ht)⟩
  · cases h : s.wl u with
    | none => rfl
    | some t => exact absurd (.inr h) (key t)
  · cases h : s.dt u with
    | false => rfl
    | true => have := (i.dtv u h).2.1 (by omega); rw [hu, h1] at this; cases this

end LS.RefCnt

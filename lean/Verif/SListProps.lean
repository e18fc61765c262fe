import Verif.SList
import Verif.FastLockProps
/-!
# C39, C72: the lock-free list is a stack
-/

namespace LS.SList
open LS.FastLock (upd upd_same upd_ne)

/-! ## Specification: a sequential stack -/

/-- Contents of the stack after one operation; `none` if it cannot have this result. -/
def apply : List Nat → Ev → Option (List Nat)
  | l, .push x => some (x :: l)
  | [], .pop none => some []
  | x :: l, .pop (some y) => if x = y then some l else none
  | _, .pop _ => none
  | l, .take m => if m = l then some [] else none

/-- The operations, the oldest first, on the stack `l`. -/
def replay (l : List Nat) : List (Nat × Ev) → Option (List Nat)
  | [] => some l
  | (_, e) :: r => match apply l e with
    | none => none
    | some l' => replay l' r

theorem replay_append (r r' : List (Nat × Ev)) : ∀ l,
    replay l (r ++ r') = (replay l r).bind (fun l' => replay l' r') := by
  induction r with
  | nil => intro l; rfl
  | cons e r ih =>
    intro l
    obtain ⟨t, e⟩ := e
    simp only [List.cons_append, replay]
    cases apply l e with
    | none => rfl
    | some l' => exact ih l'

/-- The nodes of the list beginning at `p`. -/
def Linked (next : Nat → Nat) : Nat → List Nat → Prop
  | p, [] => p = 0
  | p, x :: l => p = x ∧ x ≠ 0 ∧ Linked next (next x) l

theorem Linked.frame {next next' : Nat → Nat} : ∀ {l p}, Linked next p l →
    (∀ x ∈ l, next' x = next x) → Linked next' p l := by
  intro l
  induction l with
  | nil => intro p h _; exact h
  | cons x l ih =>
    intro p h hn
    exact ⟨h.1, h.2.1, by rw [hn x (by simp)]; exact ih h.2.2 (fun y hy => hn y (by simp [hy]))⟩

theorem Linked.nodes {next : Nat → Nat} : ∀ {l p n}, Linked next p l → l.length ≤ n →
    nodes next n p = l := by
  intro l
  induction l with
  | nil => intro p n h _; cases h; cases n <;> simp [SList.nodes]
  | cons x l ih =>
    intro p n h hn
    obtain ⟨rfl, h0, hl⟩ := h
    cases n with
    | zero => simp at hn
    | succ n => simp [SList.nodes, h0, ih hl (by simpa using hn)]

theorem replay_length : ∀ (r : List (Nat × Ev)) {l l'}, replay l r = some l' →
    l'.length ≤ l.length + r.length := by
  intro r
  induction r with
  | nil => intro l l' h; cases h; simp
  | cons e r ih =>
    intro l l' h
    obtain ⟨t, e⟩ := e
    simp only [replay] at h
    cases ha : apply l e with
    | none => rw [ha] at h; cases h
    | some l1 =>
      rw [ha] at h
      have h1 := ih h
      have h2 : l1.length ≤ l.length + 1 := by
        unfold apply at ha
        split at ha
        · cases ha; simp
        · cases ha; simp
        · split at ha
          · cases ha; simp; omega
          · cases ha
        · cases ha
        · split at ha
          · cases ha; simp
          · cases ha
      simp; omega

/-! ## Invariant -/

/-- What the pop of the thread which has read `ctop` knows. -/
def popOk (s : St) (l : List Nat) (t c k : Nat) : Prop :=
  c ≠ 0 ∧ s.rTakes t ≤ s.takes ∧ (s.rTakes t = s.takes → k = s.rPops t % 16 ∧
    s.rPops t ≤ s.pops ∧ (s.rPops t = s.pops → c ∈ l))

def pcOk (s : St) (l : List Nat) (t : Nat) : PC → Prop
  | .idle | .po0 => True
  | .pu0 x => x ≠ 0 ∧ s.owner x = some t
  | .pu1 x _ _ => x ≠ 0 ∧ s.owner x = some t
  | .pu2 x c _ => x ≠ 0 ∧ s.owner x = some t ∧ s.next x = c
  | .po1 c k => popOk s l t c k
  | .po2 c k n => popOk s l t c k ∧ (s.rTakes t = s.takes → s.rPops t = s.pops → n = s.next c)

structure Inv (s : St) (l : List Nat) : Prop where
  rep : replay [] s.log = some l
  lnk : Linked s.next s.top.1 l
  nodup : l.Nodup
  own : ∀ x ∈ l, s.owner x = none
  ck : s.top.2 = s.pops % 16
  pcs : ∀ t, pcOk s l t (s.pc t)

/-- The condition under which the cookie works: from the read of `_top` to the successful exchange
of a `pop` less than 16 other nodes are popped, and nobody calls `take`. -/
def Window (s : St) (t : Nat) (_ : Op) : Prop :=
  ∀ c k n, s.pc t = .po2 c k n → s.top = (c, k) →
    s.takes = s.rTakes t ∧ s.pops < s.rPops t + 16

/-- A transition that changes neither the list nor the nodes. -/
theorem Inv.goto {s l t p} (i : Inv s l) (r : Nat → Option (Option Nat))
    (hp : pcOk s l t p) : Inv { s with pc := upd s.pc t p, res := r } l := by
  refine ⟨i.rep, i.lnk, i.nodup, i.own, i.ck, fun u => ?_⟩
  show pcOk _ l u (upd s.pc t p u)
  by_cases hu : u = t
  · subst hu; rw [upd_same]; cases p <;> exact hp
  · rw [upd_ne _ _ hu]
    have := i.pcs u
    cases h : s.pc u <;> rw [h] at this <;> exact this

theorem Inv.popRead {s l t} (i : Inv s l) : Inv (s.popRead t) l := by
  unfold St.popRead
  split
  · rename_i h0
    have hl : l = [] := by
      have := i.lnk
      cases l with
      | nil => rfl
      | cons x l => exact absurd (this.1.symm.trans h0) this.2.1
    have := i.goto (t := t) (p := .idle) (upd s.res t (some none)) trivial
    refine ⟨?_, this.lnk, this.nodup, this.own, this.ck, fun u => ?_⟩
    · show replay [] (s.log ++ _) = _
      rw [replay_append, i.rep, hl]; rfl
    · have := this.pcs u
      revert this
      show pcOk _ l u (upd s.pc t .idle u) → pcOk _ l u (upd s.pc t .idle u)
      cases upd s.pc t .idle u <;> exact id
  · rename_i h0
    refine ⟨i.rep, i.lnk, i.nodup, i.own, i.ck, fun u => ?_⟩
    show pcOk _ l u (upd s.pc t _ u)
    by_cases hu : u = t
    · subst hu; rw [upd_same]
      refine ⟨h0, ?_, ?_⟩
      · simp [upd_same]
      · simp only [upd_same]
        refine fun _ => ⟨i.ck, Nat.le_refl _, fun _ => ?_⟩
        have := i.lnk
        cases l with
        | nil => exact absurd this h0
        | cons x l => rw [this.1]; simp
    · rw [upd_ne _ _ hu]
      have := i.pcs u
      revert this
      cases s.pc u <;> simp only [pcOk, popOk, upd_ne _ _ hu] <;> exact id

theorem Inv.pushRead {s l t x} (i : Inv s l) (hx : x ≠ 0 ∧ s.owner x = some t) :
    Inv (s.pushRead t x) l := i.goto s.res hx

theorem Inv.step {s l s' t op} (i : Inv s l) (hw : Window s t op) (h : step s t op = some s') :
    ∃ l', Inv s' l' := by
  have hpt := i.pcs t
  unfold SList.step at h
  cases hpc : s.pc t with
  | idle =>
    rw [hpc] at h
    cases op with
    | push x =>
      dsimp only at h
      split at h <;> cases h
      rename_i hx
      exact ⟨l, i.goto s.res hx⟩
    | pop => cases h; exact ⟨l, i.goto _ trivial⟩
    | take =>
      cases h
      have hl : nodes s.next s.log.length s.top.1 = l :=
        i.lnk.nodes (by simpa using replay_length _ i.rep)
      rw [hl]
      refine ⟨[], ?_, rfl, by simp, by simp, rfl, fun u => ?_⟩
      · show replay [] (s.log ++ _) = _
        rw [replay_append, i.rep]; simp [replay, apply]
      · have := i.pcs u
        have hne : ∀ x v, s.owner x = some v → (if x ∈ l then some t else s.owner x) = some v := by
          intro x v hx
          rw [if_neg (fun hxl => by rw [i.own x hxl] at hx; cases hx)]; exact hx
        revert this
        show pcOk _ l u (s.pc u) → pcOk _ [] u (s.pc u)
        cases s.pc u with
        | idle => exact id
        | po0 => exact id
        | pu0 x => exact fun h => ⟨h.1, hne x u h.2⟩
        | pu1 x c k => exact fun h => ⟨h.1, hne x u h.2⟩
        | pu2 x c k => exact fun h => ⟨h.1, hne x u h.2.1, h.2.2⟩
        | po1 c k =>
          exact fun h => ⟨h.1, Nat.le_succ_of_le h.2.1, fun hh => absurd hh (Nat.ne_of_lt
            (Nat.lt_succ_of_le h.2.1))⟩
        | po2 c k n =>
          exact fun h => ⟨⟨h.1.1, Nat.le_succ_of_le h.1.2.1, fun hh => absurd hh (Nat.ne_of_lt
            (Nat.lt_succ_of_le h.1.2.1))⟩, fun hh => absurd hh (Nat.ne_of_lt
            (Nat.lt_succ_of_le h.1.2.1))⟩
    | give x v =>
      dsimp only at h
      split at h <;> cases h
      rename_i hx
      refine ⟨l, i.rep, i.lnk, i.nodup, fun y hy => ?_, i.ck, fun u => ?_⟩
      · have := i.own y hy
        show upd s.owner x (some v) y = none
        rw [upd_ne _ _ (fun hh => by rw [hh, hx] at this; cases this)]; exact this
      · have := i.pcs u
        have hne : ∀ y, u ≠ t → s.owner y = some u → upd s.owner x (some v) y = some u := by
          intro y hu hy
          rw [upd_ne _ _ (fun hh => by rw [hh, hx] at hy; cases hy; exact hu rfl)]; exact hy
        by_cases hu : u = t
        · subst hu
          show pcOk _ l u (s.pc u)
          rw [hpc]; trivial
        · revert this
          show pcOk _ l u (s.pc u) → pcOk _ l u (s.pc u)
          cases s.pc u with
          | idle => exact id
          | po0 => exact id
          | pu0 x => exact fun h => ⟨h.1, hne x hu h.2⟩
          | pu1 x c k => exact fun h => ⟨h.1, hne x hu h.2⟩
          | pu2 x c k => exact fun h => ⟨h.1, hne x hu h.2.1, h.2.2⟩
          | po1 c k => exact id
          | po2 c k n => exact id
  | pu0 x =>
    rw [hpc] at h hpt; cases h; exact ⟨l, i.pushRead hpt⟩
  | pu1 x c k =>
    rw [hpc] at h hpt; cases h
    have hxl : x ∉ l := fun hh => by have := i.own x hh; rw [hpt.2] at this; cases this
    refine ⟨l, i.rep, i.lnk.frame (fun y hy => upd_ne _ _ (fun hh => hxl (hh ▸ hy))), i.nodup,
      i.own, i.ck, fun u => ?_⟩
    show pcOk _ l u (upd s.pc t _ u)
    by_cases hu : u = t
    · subst hu; rw [upd_same]; exact ⟨hpt.1, hpt.2, upd_same _ _ _⟩
    · rw [upd_ne _ _ hu]
      have := i.pcs u
      revert this
      cases s.pc u with
      | pu2 y c k =>
        refine fun h => ⟨h.1, h.2.1, ?_⟩
        show upd s.next x _ y = _
        rw [upd_ne _ _ (fun hh => by rw [hh] at h; exact hu (by
          have := h.2.1.symm.trans hpt.2; cases this; rfl))]
        exact h.2.2
      | po2 c k n =>
        refine fun h => ⟨h.1, fun h1 h2 => ?_⟩
        show n = upd s.next x _ c
        rw [upd_ne _ _ (fun hh => hxl (by rw [← hh]; exact (h.1.2.2 h1).2.2 h2))]
        exact h.2 h1 h2
      | _ => exact id
  | pu2 x c k =>
    rw [hpc] at h hpt
    dsimp only at h
    split at h
    · rename_i htop
      cases h
      have hxl : x ∉ l := fun hh => by have := i.own x hh; rw [hpt.2.1] at this; cases this
      have h1 : s.top.1 = c := by rw [htop]
      have h2 : s.top.2 = k := by rw [htop]
      refine ⟨x :: l, ?_, ⟨rfl, hpt.1, ?_⟩, by simp [hxl, i.nodup], ?_, ?_, fun u => ?_⟩
      · show replay [] (s.log ++ _) = _
        rw [replay_append, i.rep]; rfl
      · show Linked s.next (s.next x) l
        rw [hpt.2.2, ← h1]; exact i.lnk
      · intro y hy
        show upd s.owner x none y = none
        by_cases hyx : y = x
        · subst hyx; exact upd_same _ _ _
        · rw [upd_ne _ _ hyx]; exact i.own y (by simpa [hyx] using hy)
      · show k = _
        rw [← h2]; exact i.ck
      · show pcOk _ _ u (upd s.pc t _ u)
        by_cases hu : u = t
        · subst hu; rw [upd_same]; trivial
        · rw [upd_ne _ _ hu]
          have := i.pcs u
          have hne : ∀ y, s.owner y = some u → upd s.owner x none y = some u := by
            intro y hy
            rw [upd_ne _ _ (fun hh => by rw [hh, hpt.2.1] at hy; cases hy; exact hu rfl)]; exact hy
          revert this
          cases s.pc u with
          | idle => exact id
          | po0 => exact id
          | pu0 x => exact fun h => ⟨h.1, hne x h.2⟩
          | pu1 x c k => exact fun h => ⟨h.1, hne x h.2⟩
          | pu2 x c k => exact fun h => ⟨h.1, hne x h.2.1, h.2.2⟩
          | po1 c k =>
            exact fun h => ⟨h.1, h.2.1, fun h1 => ⟨(h.2.2 h1).1, (h.2.2 h1).2.1,
              fun h2 => List.mem_cons_of_mem _ ((h.2.2 h1).2.2 h2)⟩⟩
          | po2 c k n =>
            exact fun h => ⟨⟨h.1.1, h.1.2.1, fun h1 => ⟨(h.1.2.2 h1).1, (h.1.2.2 h1).2.1,
              fun h2 => List.mem_cons_of_mem _ ((h.1.2.2 h1).2.2 h2)⟩⟩, h.2⟩
    · cases h; exact ⟨l, i.pushRead ⟨hpt.1, hpt.2.1⟩⟩
  | po0 => rw [hpc] at h; cases h; exact ⟨l, i.popRead⟩
  | po1 c k =>
    rw [hpc] at h hpt; cases h
    exact ⟨l, i.goto s.res ⟨hpt, fun _ _ => rfl⟩⟩
  | po2 c k n =>
    rw [hpc] at h hpt
    dsimp only at h
    split at h
    · rename_i htop
      cases h
      have h1 : s.top.1 = c := by rw [htop]
      have h2 : s.top.2 = k := by rw [htop]
      obtain ⟨w1, w2⟩ := hw c k n hpc htop
      obtain ⟨⟨hc0, -, hp⟩, hn⟩ := hpt
      obtain ⟨hk, hle, hcl⟩ := hp w1.symm
      have heq : s.rPops t = s.pops := by
        have := i.ck
        rw [h2, hk] at this
        omega
      have hn := hn w1.symm heq
      have hcl := hcl heq
      have hlnk := i.lnk
      have hnd := i.nodup
      have hown := i.own
      have hrep := i.rep
      cases l with
      | nil => simp at hcl
      | cons x l =>
        have hx : x = c := by rw [← h1]; exact hlnk.1.symm
        subst hx
        refine ⟨l, ?_, ?_, (List.nodup_cons.1 hnd).2, ?_, ?_, fun u => ?_⟩
        · show replay [] (s.log ++ _) = _
          rw [replay_append, hrep]; simp [replay, apply]
        · show Linked s.next n l
          rw [hn]; exact hlnk.2.2
        · intro y hy
          show upd s.owner x _ y = none
          rw [upd_ne _ _ (fun hh => (List.nodup_cons.1 hnd).1 (by rw [← hh]; exact hy))]
          exact hown y (by simp [hy])
        · show (k + 1) % 16 = (s.pops + 1) % 16
          rw [hk, heq]; omega
        · show pcOk _ _ u (upd s.pc t _ u)
          by_cases hu : u = t
          · subst hu; rw [upd_same]; trivial
          · rw [upd_ne _ _ hu]
            have := i.pcs u
            have hne : ∀ y, s.owner y = some u → upd s.owner x (some t) y = some u := by
              intro y hy
              rw [upd_ne _ _ (fun hh => by rw [hh, hown x (by simp)] at hy; cases hy)]; exact hy
            have hpo : ∀ c k, popOk s (x :: l) u c k → s.rTakes u = s.takes →
                s.rPops u ≠ s.pops + 1 := by
              intro c k h h1
              have := (h.2.2 h1).2.1
              omega
            revert this
            cases s.pc u with
            | idle => exact id
            | po0 => exact id
            | pu0 x => exact fun h => ⟨h.1, hne x h.2⟩
            | pu1 x c k => exact fun h => ⟨h.1, hne x h.2⟩
            | pu2 x c k => exact fun h => ⟨h.1, hne x h.2.1, h.2.2⟩
            | po1 c k =>
              exact fun h => ⟨h.1, h.2.1, fun h1 => ⟨(h.2.2 h1).1,
                Nat.le_succ_of_le (h.2.2 h1).2.1, fun h2 => absurd h2 (hpo c k h h1)⟩⟩
            | po2 c k n =>
              exact fun h => ⟨⟨h.1.1, h.1.2.1, fun h1 => ⟨(h.1.2.2 h1).1,
                Nat.le_succ_of_le (h.1.2.2 h1).2.1, fun h2 => absurd h2 (hpo c k h.1 h1)⟩⟩,
                fun h1 h2 => absurd h2 (hpo c k h.1 h1)⟩
    · cases h; exact ⟨l, i.popRead⟩

theorem Reach.inv {o s} (h : Reach Window o s) : ∃ l, Inv s l := by
  induction h with
  | init => exact ⟨[], rfl, rfl, by simp, by simp, rfl, fun _ => trivial⟩
  | step _ hw hs ih =>
    obtain ⟨l, hl⟩ := ih
    exact hl.step hw hs

/-! ## C39 -/

/-- C39 (partial): the operations in the order in which they took effect are operations of a
sequential stack, its contents are exactly the nodes linked from `_top`. Missing: a `pop` overtaken
by 16 other ones, see `c39_violated`, and `take` during a `pop`, see `c72_violated`. -/
theorem c39_stack_partial {o s} (h : Reach Window o s) :
    ∃ l, replay [] s.log = some l ∧ Linked s.next s.top.1 l ∧ l.Nodup ∧
      ∀ x ∈ l, s.owner x = none := by
  obtain ⟨l, hl⟩ := h.inv
  exact ⟨l, hl.rep, hl.lnk, hl.nodup, hl.own⟩

/-- Any restriction which implies another one can be replaced by it. -/
theorem Reach.mono {P Q : St → Nat → Op → Prop} {o s} (h : Reach P o s)
    (hPQ : ∀ s t op, Reach P o s → P s t op → Q s t op) : Reach Q o s := by
  induction h with
  | init => exact .init
  | step h0 hp hs ih => exact .step ih (hPQ _ _ _ h0 hp) hs

theorem exec_reach {P o} : ∀ (l : List (Nat × Op)) {s s'},
    (∀ x ∈ l, ∀ s, P s x.1 x.2) → Reach P o s → exec s l = some s' → Reach P o s' := by
  intro l
  induction l with
  | nil => intro s s' _ h he; cases he; exact h
  | cons x l ih =>
    intro s s' hx h he
    obtain ⟨t, op⟩ := x
    unfold exec at he
    cases hs : SList.step s t op with
    | none => rw [hs] at he; cases he
    | some s1 =>
      rw [hs] at he
      exact ih (fun x h => hx x (by simp [h])) (.step h (hx (t, op) (by simp) s) hs) he

/-- Schedule of an undisturbed `push`, `pop`. -/
def doPush (t x : Nat) : List (Nat × Op) := [(t, .push x), (t, .pop), (t, .pop), (t, .pop)]
def doPop (t : Nat) : List (Nat × Op) := [(t, .pop), (t, .pop), (t, .pop), (t, .pop)]

/-- Nodes 1 and 2 are in the list (1 is on the top). Thread 7 reads `_top` and `next` of node 1.
Thread 8 pops both nodes, then pushes and pops node 1 fourteen times and pushes it. The cookie is
the same again, thread 7 pops node 1 and makes node 2 the top. -/
def abaSchedule : List (Nat × Op) :=
  doPush 8 2 ++ doPush 8 1 ++ [(7, .pop), (7, .pop), (7, .pop)] ++ doPop 8 ++ doPop 8 ++
    (List.replicate 14 (doPush 8 1 ++ doPop 8)).flatten ++ doPush 8 1 ++ [(7, .pop)] ++ doPop 7

def start (t : Nat) : St := { owner := fun _ => some t }

/-- C39 (violated): two threads, `push` and `pop` only: node 2 is popped twice though it was pushed
once, so no order of the operations is that of a stack. (slist.h:19 says that less threads than
values of the cookie cannot cause a problem.) -/
theorem c39_violated : ∃ s, Reach (fun _ t op => op ≠ .take ∧ (t = 7 ∨ t = 8)) (fun _ => 8) s ∧
    replay [] s.log = none ∧ (s.log.filter (fun e => e.2 = .push 2)).length = 1 ∧
    (s.log.filter (fun e => e.2 = .pop (some 2))).length = 2 := by
  cases h : exec (start 8) abaSchedule with
  | none => exact absurd h (by decide +kernel)
  | some s =>
    refine ⟨s, exec_reach abaSchedule ?_ .init h, ?_⟩
    · have : ∀ x ∈ abaSchedule, x.2 ≠ .take ∧ (x.1 = 7 ∨ x.1 = 8) := by decide +kernel
      exact fun x hx _ => this x hx
    · have e : (exec (start 8) abaSchedule).map (fun s => (replay [] s.log,
          (s.log.filter (fun e => e.2 = .push 2)).length,
          (s.log.filter (fun e => e.2 = .pop (some 2))).length)) = some (none, 1, 2) := by
        decide +kernel
      rw [h] at e
      simpa using e

/-! ## One consumer -/

/-- One thread only removes nodes. -/
def OneConsumer (c : Nat) (_ : St) (t : Nat) (op : Op) : Prop := op = .pop ∨ op = .take → t = c

def isPop : PC → Bool
  | .po0 | .po1 .. | .po2 .. => true
  | _ => false

structure Inv1 (c : Nat) (s : St) : Prop where
  who : ∀ t, isPop (s.pc t) = true → t = c
  fresh : isPop (s.pc c) = true → s.pc c ≠ .po0 → s.rTakes c = s.takes ∧ s.rPops c = s.pops

theorem Inv1.keep {c s s' t p} (i : Inv1 c s) (hpc : s'.pc = upd s.pc t p)
    (hp : isPop p = true → t = c ∧ (p ≠ .po0 → s'.rTakes c = s'.takes ∧ s'.rPops c = s'.pops))
    (hk : t ≠ c → s'.rTakes c = s.rTakes c ∧ s'.takes = s.takes ∧ s'.rPops c = s.rPops c ∧
      s'.pops = s.pops) : Inv1 c s' := by
  constructor
  · intro u hu
    rw [hpc] at hu
    by_cases hut : u = t
    · subst hut; rw [upd_same] at hu; exact (hp hu).1
    · rw [upd_ne _ _ hut] at hu; exact i.who u hu
  · intro h1 h2
    rw [hpc] at h1 h2
    by_cases hut : c = t
    · subst hut; rw [upd_same] at h1 h2; exact (hp h1).2 h2
    · rw [upd_ne _ _ hut] at h1 h2
      obtain ⟨k1, k2, k3, k4⟩ := hk (fun h => hut h.symm)
      rw [k1, k2, k3, k4]; exact i.fresh h1 h2

theorem Inv1.popRead {c s t} (i : Inv1 c s) (ht : t = c) : Inv1 c (s.popRead t) := by
  subst ht
  unfold St.popRead
  split
  · exact i.keep (t := t) (p := .idle) rfl (by simp [isPop]) (by simp)
  · exact i.keep (t := t) rfl (fun _ => ⟨rfl, fun _ => ⟨upd_same _ _ _, upd_same _ _ _⟩⟩) (by simp)

theorem Inv1.step {c s s' t op} (i : Inv1 c s) (hP : OneConsumer c s t op)
    (h : SList.step s t op = some s') : Inv1 c s' := by
  unfold SList.step at h
  cases hpc : s.pc t with
  | idle =>
    rw [hpc] at h
    cases op with
    | push x =>
      dsimp only at h
      split at h <;> cases h
      exact i.keep rfl (by simp [isPop]) (by simp)
    | pop =>
      cases h
      exact i.keep rfl (fun _ => ⟨hP (.inl rfl), by simp⟩) (by simp)
    | take =>
      cases h
      have hc := hP (.inr rfl)
      subst hc
      refine i.keep (t := t) (p := .idle) ?_ (by simp [isPop]) (by simp)
      funext u
      by_cases hu : u = t
      · subst hu; rw [upd_same]; exact hpc
      · rw [upd_ne _ _ hu]
    | give x v =>
      dsimp only at h
      split at h <;> cases h
      exact ⟨i.who, i.fresh⟩
  | pu0 x => rw [hpc] at h; cases h; exact i.keep rfl (by simp [isPop]) (by simp [St.pushRead])
  | pu1 x c' k => rw [hpc] at h; cases h; exact i.keep rfl (by simp [isPop]) (by simp)
  | pu2 x c' k =>
    rw [hpc] at h
    dsimp only at h
    split at h <;> cases h
    · exact i.keep rfl (by simp [isPop]) (by simp)
    · exact i.keep rfl (by simp [isPop]) (by simp [St.pushRead])
  | po0 =>
    rw [hpc] at h; cases h; exact i.popRead (i.who t (by rw [hpc]; rfl))
  | po1 c' k =>
    rw [hpc] at h; cases h
    have ht := i.who t (by rw [hpc]; rfl)
    subst ht
    exact i.keep (t := t) rfl (fun _ => ⟨rfl, fun _ => i.fresh (by rw [hpc]; rfl) (by simp [hpc])⟩)
      (by simp)
  | po2 c' k n =>
    rw [hpc] at h
    dsimp only at h
    have ht := i.who t (by rw [hpc]; rfl)
    subst ht
    split at h <;> cases h
    · exact i.keep (t := t) (p := .idle) rfl (by simp [isPop]) (by simp)
    · exact i.popRead rfl

theorem Reach.inv1 {c o s} (h : Reach (OneConsumer c) o s) : Inv1 c s := by
  induction h with
  | init => exact ⟨by simp [isPop], by simp [isPop]⟩
  | step _ hP hs ih => exact ih.step hP hs

theorem OneConsumer.window {c o s t op} (h : Reach (OneConsumer c) o s) : Window s t op := by
  intro c' k n hpc _
  have ht := h.inv1.who t (by rw [hpc]; rfl)
  subst ht
  have := h.inv1.fresh (by rw [hpc]; rfl) (by simp [hpc])
  omega

/-- C39: with any number of threads which push and one which pops and takes, the list is a stack,
without any condition on the interleaving. -/
theorem c39_one_consumer {c o s} (h : Reach (OneConsumer c) o s) :
    ∃ l, replay [] s.log = some l ∧ Linked s.next s.top.1 l ∧ l.Nodup ∧
      ∀ x ∈ l, s.owner x = none :=
  c39_stack_partial (h.mono (fun _ _ _ h _ => OneConsumer.window h))

theorem Reach.noPop {o s} (h : Reach (fun _ _ op => op ≠ .pop) o s) :
    ∀ t, isPop (s.pc t) = false := by
  induction h with
  | init => intro t; rfl
  | @step s s' u op _ hP hs ih =>
    have key : ∀ p, isPop p = false → ∀ t, isPop (upd s.pc u p t) = false := by
      intro p hp t
      by_cases hut : t = u
      · subst hut; rw [upd_same]; exact hp
      · rw [upd_ne _ _ hut]; exact ih t
    have hu := ih u
    unfold SList.step at hs
    split at hs
    · split at hs
      · split at hs <;> cases hs; exact key _ rfl
      · exact absurd rfl hP
      · cases hs; exact ih
      · split at hs <;> cases hs; exact ih
    · cases hs; exact key _ rfl
    · cases hs; exact key _ rfl
    · split at hs <;> cases hs <;> exact key _ rfl
    · rename_i hpc; rw [hpc] at hu; cases hu
    · rename_i hpc; rw [hpc] at hu; cases hu
    · rename_i hpc; rw [hpc] at hu; cases hu

/-- C39: so is it if nobody calls `pop` (any threads push and take). -/
theorem c39_push_take {o s} (h : Reach (fun _ _ op => op ≠ .pop) o s) :
    ∃ l, replay [] s.log = some l ∧ Linked s.next s.top.1 l ∧ l.Nodup ∧
      ∀ x ∈ l, s.owner x = none := by
  refine c39_stack_partial (h.mono (fun s t op h _ => ?_))
  intro c k n hpc _
  have := h.noPop t
  rw [hpc] at this; cases this

def Ev.isPop : Ev → Bool
  | .pop _ => true
  | _ => false

/-- The last `pop` event of the thread. -/
def lastPop (t : Nat) (log : List (Nat × Ev)) : Option (Nat × Ev) :=
  (log.filter (fun e => e.1 == t && e.2.isPop)).getLast?

/-- C39: what `pop` returns is what its event in the log says. -/
theorem c39_result {P o s t r} (h : Reach P o s) (hr : s.res t = some r) :
    lastPop t s.log = some (t, .pop r) := by
  induction h generalizing t r with
  | init => cases hr
  | @step s s' u op h0 _ hs ih =>
    have hread : (s.popRead u).res t = some r → lastPop t (s.popRead u).log = some (t, .pop r) := by
      intro hr
      unfold St.popRead at hr ⊢
      split at hr
      · rename_i h0
        rw [if_pos h0]
        by_cases hut : t = u
        · subst hut
          simp only [upd_same] at hr
          cases hr
          simp [lastPop, Ev.isPop]
        · simp only [upd_ne _ _ hut] at hr
          have := ih hr
          simpa [lastPop, Ev.isPop, Ne.symm hut] using this
      · rename_i h0
        rw [if_neg h0]; exact ih hr
    unfold SList.step at hs
    split at hs
    · split at hs
      · split at hs <;> cases hs; exact ih hr
      · cases hs
        by_cases hut : t = u
        · subst hut; simp [upd_same] at hr
        · simp only [upd_ne _ _ hut] at hr; exact ih hr
      · cases hs; simpa [lastPop, Ev.isPop] using ih hr
      · split at hs <;> cases hs; exact ih hr
    · cases hs; exact ih hr
    · cases hs; exact ih hr
    · split at hs <;> cases hs
      · simpa [lastPop, Ev.isPop] using ih hr
      · exact ih hr
    · cases hs; exact hread hr
    · cases hs; exact ih hr
    · split at hs <;> cases hs
      · by_cases hut : t = u
        · subst hut
          simp only [upd_same] at hr
          cases hr
          simp [lastPop, Ev.isPop]
        · simp only [upd_ne _ _ hut] at hr
          simpa [lastPop, Ev.isPop, Ne.symm hut] using ih hr
      · exact hread hr

/-- Threads 1 and 2 push at the same time (2 has to repeat), thread 3 pops twice. -/
example : (exec { owner := fun x => some x } ([(1, .push 1), (2, .push 2), (1, .pop), (2, .pop),
      (1, .pop), (2, .pop), (1, .pop), (2, .pop), (2, .pop), (2, .pop)] ++ doPop 3 ++ doPop 3)).map
        (fun s => (s.log, s.top)) =
    some ([(1, .push 1), (2, .push 2), (3, .pop (some 2)), (3, .pop (some 1))], (0, 2)) := by
  decide

/-! ## C72: `take` -/

/-- Thread 7 reads `_top` and `next` of node 1 (node 2 is below). Thread 8 takes the list and
pushes node 1. Thread 7 pops node 1 and makes node 2 the top; thread 8 takes it again. -/
def takeSchedule : List (Nat × Op) :=
  doPush 8 2 ++ doPush 8 1 ++ [(7, .pop), (7, .pop), (7, .pop), (8, .take)] ++ doPush 8 1 ++
    [(7, .pop), (8, .take)]

/-- C72 (violated): `take` during a `pop` puts the cookie back, no other `pop` is necessary: node 2
is pushed once and taken twice. -/
theorem c72_violated : ∃ s, Reach (fun _ t _ => t = 7 ∨ t = 8) (fun _ => 8) s ∧
    replay [] s.log = none ∧ s.log = [(8, .push 2), (8, .push 1), (8, .take [1, 2]), (8, .push 1),
      (7, .pop (some 1)), (8, .take [2])] := by
  cases h : exec (start 8) takeSchedule with
  | none => exact absurd h (by decide +kernel)
  | some s =>
    refine ⟨s, exec_reach takeSchedule ?_ .init h, ?_⟩
    · have : ∀ x ∈ takeSchedule, (x.1 = 7 ∨ x.1 = 8) := by decide +kernel
      exact fun x hx _ => this x hx
    · have e : (exec (start 8) takeSchedule).map (fun s => (replay [] s.log, s.log)) =
          some (none, [(8, .push 2), (8, .push 1), (8, .take [1, 2]), (8, .push 1),
            (7, .pop (some 1)), (8, .take [2])]) := by
        decide +kernel
      rw [h] at e
      simpa using e

end LS.SList

import Verif.MsgQueue
import Verif.FastLockProps
import Verif.SListProps
/-!
# C42, C78: the message queue delivers exactly once and in order
-/

namespace LS.MsgQueue
open LS.FastLock (upd upd_same upd_ne)
open LS.SList (Linked Linked.frame)

/-! ## Specification: a sequential queue -/

/-- The messages in the queue after one event; `none` if the event cannot happen. -/
def apply (q : List Nat) : Ev → Option (List Nat)
  | .post _ x => some (q ++ [x])
  | .prio _ x => some (x :: q)
  | .run x => if q.head? = some x then some q.tail else none
  | .rej x => if x ∈ q then some (q.erase x) else none
  | .none => some q

/-- The events, the oldest first, on the queue `q`. -/
def replay (q : List Nat) : List Ev → Option (List Nat)
  | [] => some q
  | e :: r => match apply q e with
    | none => none
    | some q' => replay q' r

theorem replay_append (r r' : List Ev) : ∀ q, replay q (r ++ r') = (replay q r).bind (fun q' => replay q' r') := by
  induction r with
  | nil => intro q; rfl
  | cons e r ih =>
    intro q
    simp only [List.cons_append, replay]
    cases apply q e with
    | none => rfl
    | some q' => exact ih q'

theorem replay_snoc {r : List Ev} {q q' : List Nat} {e : Ev} (h : replay [] r = some q) (ha : apply q e = some q') :
    replay [] (r ++ [e]) = some q' := by
  rw [replay_append, h]
  show replay q [e] = _
  simp [replay, ha]

/-! ## Linked lists -/

theorem linked_zero {next : Nat → Nat} {l : List Nat} (h : Linked next 0 l) : l = [] := by
  cases l with
  | nil => rfl
  | cons x l => exact absurd h.1.symm h.2.1

theorem linked_ne {next : Nat → Nat} {p : Nat} {l : List Nat} (h : Linked next p l) (hp : p ≠ 0) :
    ∃ r, l = p :: r ∧ Linked next (next p) r := by
  cases l with
  | nil => exact absurd h hp
  | cons x l => obtain ⟨rfl, _, h⟩ := h; exact ⟨l, rfl, h⟩

theorem linked_mem {next : Nat → Nat} : ∀ {l p x}, Linked next p l → x ∈ l → x ≠ 0 := by
  intro l
  induction l with
  | nil => intro p x _ h; cases h
  | cons y l ih =>
    intro p x h hx
    rcases List.mem_cons.1 hx with rfl | hx
    · exact h.2.1
    · exact ih h.2.2 hx

theorem linked_split {next : Nat → Nat} : ∀ {a p x b}, Linked next p (a ++ x :: b) → Linked next (next x) b := by
  intro a
  induction a with
  | nil => intro p x b h; exact h.2.2
  | cons y a ih => intro p x b h; exact ih h.2.2

theorem linked_set {next : Nat → Nat} {r : Nat} {b' : List Nat} : ∀ {a p x b}, Linked next p (a ++ x :: b) →
    (a ++ x :: b).Nodup → Linked (upd next x r) r b' → Linked (upd next x r) p (a ++ x :: b') := by
  intro a
  induction a with
  | nil =>
    intro p x b h hn hb
    exact ⟨h.1, h.2.1, by rw [upd_same]; exact hb⟩
  | cons y a ih =>
    intro p x b h hn hb
    have hn' : (y :: (a ++ x :: b)).Nodup := hn
    have hne : y ≠ x := by
      rintro rfl; exact (List.nodup_cons.1 hn').1 (by simp)
    refine ⟨h.1, h.2.1, ?_⟩
    rw [upd_ne _ _ hne]
    exact ih h.2.2 (List.nodup_cons.1 hn').2 hb

theorem linked_upd {next : Nat → Nat} {l : List Nat} {p x v : Nat} (h : Linked next p l) (hx : x ∉ l) :
    Linked (upd next x v) p l :=
  h.frame (fun y hy => upd_ne _ _ (fun e => hx (e ▸ hy)))

/-! ## Invariant -/

/-- Event `e` puts `x` into the queue. -/
def Ev.puts (x : Nat) : Ev → Prop
  | .post _ y => y = x
  | .prio _ y => y = x
  | _ => False

/-- `x` was posted after the worker began its call. -/
def Recent (s : St) (x : Nat) : Prop := ∃ e ∈ s.log.drop s.start, e.puts x

/-- The queue was empty at some time since the worker began its call. -/
def WasEmpty (s : St) : Prop :=
  s.start ≤ s.mark ∧ s.mark ≤ s.log.length ∧ replay [] (s.log.take s.mark) = some []

/-- What the worker knows between the exchange at msgQueue.cpp:69 and the return of `prepareQueue`. -/
def retOk (rec : Nat → Prop) (emp : Prop) (C N L : List Nat) : Ret → Prop
  | .next _ => C = [] → L = [] → emp
  | .flush => True
  | .cancel x => x ∈ N → rec x

/-- What the worker knows; `C`, `N`: the messages in the two lists, `L`: the messages in its hands. -/
def wOk (next : Nat → Nat) (owner : Nat → Option Nat) (rec : Nat → Prop) (emp : Prop) (C N L : List Nat) : WPC → Prop
  | .idle | .g0 _ | .r0 _ | .r1 _ _ => L = []
  | .g1 _ => L = [] ∧ (C = [] → emp)
  | .g2 _ x => L = [] ∧ x ∈ C
  | .g3 _ x n => L = [] ∧ x ∈ C ∧ next x = n
  | .g4 _ => L = [] ∧ C ≠ []
  | .g5 _ x | .c4 x => L = [] ∧ x ≠ 0 ∧ x ∉ C ∧ x ∉ N ∧ owner x = none
  | .r2 p r k => retOk rec emp C N L k ∧ ∃ P R, Linked next p P ∧ Linked next r R ∧ L = P.reverse ++ R
  | .a0 r k => retOk rec emp C N L k ∧ Linked next r L
  | .a1 r k => retOk rec emp C N L k ∧ Linked next r L ∧ C ≠ []
  | .a2 q r k => retOk rec emp C N L k ∧ Linked next r L ∧ q ∈ C
  | .c0 x => L = [] ∧ (x ∈ N → rec x) ∧ x ≠ 0
  | .c1 x => L = [] ∧ (x ∈ N → rec x) ∧ x ∈ C
  | .c2 x n => L = [] ∧ (x ∈ N → rec x) ∧ x ∈ C ∧ next x = n
  | .c3 x n p => L = [] ∧ (x ∈ N → rec x) ∧ next n = p ∧ ∃ C1 C2, C = C1 ++ n :: C2 ∧ (x ∈ C1 ++ [n] → rec x)

/-- The worker has a message which is not in the queue and is counted. -/
def held : WPC → Int
  | .g5 _ _ | .c4 _ => 1
  | _ => 0

def pcOk (s : St) (t : Nat) : PPC → Prop
  | .idle | .p3 => True
  | .p0 _ x | .p1 _ x => x ≠ 0 ∧ s.owner x = some t
  | .p2 _ _ _ => False

/-- Poster `t` is posting `x`. -/
def PPC.has (x : Nat) : PPC → Prop
  | .p0 _ y | .p1 _ y => y = x
  | _ => False

structure Inv (s : St) (C N L : List Nat) : Prop where
  rep : replay [] s.log = some (C ++ L ++ N.reverse)
  lc : Linked s.next s.curTop C
  ln : Linked s.next s.newTop N
  nodup : (C ++ L ++ N).Nodup
  own : ∀ x ∈ C ++ L ++ N, s.owner x = none
  free : ∀ x t, s.owner x = some t → (s.pc t).has x ∨ s.next x = 0
  pcs : ∀ t, pcOk s t (s.pc t)
  wok : wOk s.next s.owner (Recent s) (WasEmpty s) C N L s.w
  safe : s.ub = false
  cnt : s.queueLen + s.uncounted.length = (C ++ L ++ N).length + held s.w
  unc : s.uncounted.Nodup
  unc2 : ∀ t, t ∈ s.uncounted ↔ s.pc t = .p3
  st : s.start ≤ s.log.length

/-- The worker's knowledge does not depend on what the posters do. -/
theorem wOk.frame {next next' : Nat → Nat} {owner owner' : Nat → Option Nat} {rec rec' : Nat → Prop} {emp emp' : Prop}
    {C N L A B : List Nat} {w : WPC} (h : wOk next owner rec emp C N L w)
    (hn : ∀ x, (x ∈ C ++ L) → next' x = next x) (ho : ∀ x, owner x = none → owner' x = none)
    (hr : ∀ x, rec x → rec' x) (he : emp → emp') (hA : ∀ x ∈ A, rec' x) (hB : ∀ x ∈ B, rec' x)
    (hoA : ∀ x ∈ A, owner x ≠ none) (hoB : ∀ x ∈ B, owner x ≠ none) : wOk next' owner' rec' emp' (A ++ C) (B ++ N) L w := by
  have ret : ∀ {k}, retOk rec emp C N L k → retOk rec' emp' (A ++ C) (B ++ N) L k := by
    intro k hk
    cases k with
    | next m => intro h1 h2; exact he (hk (List.append_eq_nil_iff.1 h1).2 h2)
    | flush => trivial
    | cancel x =>
      intro h1
      rcases List.mem_append.1 h1 with h1 | h1
      · exact hB x h1
      · exact hr x (hk h1)
  have can : ∀ {x}, (x ∈ N → rec x) → (x ∈ B ++ N → rec' x) := by
    intro x h h1
    rcases List.mem_append.1 h1 with h1 | h1
    · exact hB x h1
    · exact hr x (h h1)
  have hL : ∀ x ∈ L, next' x = next x := fun x hx => hn x (List.mem_append_right _ hx)
  have hC : ∀ x ∈ C, next' x = next x := fun x hx => hn x (List.mem_append_left _ hx)
  cases w with
  | idle => exact h
  | g0 m => exact h
  | r0 k => exact h
  | r1 p k => exact h
  | g1 m => exact ⟨h.1, fun e => he (h.2 (List.append_eq_nil_iff.1 e).2)⟩
  | g2 m x => exact ⟨h.1, List.mem_append_right _ h.2⟩
  | g3 m x n => exact ⟨h.1, List.mem_append_right _ h.2.1, by rw [hC x h.2.1]; exact h.2.2⟩
  | g4 m => exact ⟨h.1, fun e => h.2 (List.append_eq_nil_iff.1 e).2⟩
  | g5 m x =>
    refine ⟨h.1, h.2.1, ?_, ?_, ho x h.2.2.2.2⟩
    · intro hx
      rcases List.mem_append.1 hx with hx | hx
      · exact hoA x hx h.2.2.2.2
      · exact h.2.2.1 hx
    · intro hx
      rcases List.mem_append.1 hx with hx | hx
      · exact hoB x hx h.2.2.2.2
      · exact h.2.2.2.1 hx
  | c4 x =>
    refine ⟨h.1, h.2.1, ?_, ?_, ho x h.2.2.2.2⟩
    · intro hx
      rcases List.mem_append.1 hx with hx | hx
      · exact hoA x hx h.2.2.2.2
      · exact h.2.2.1 hx
    · intro hx
      rcases List.mem_append.1 hx with hx | hx
      · exact hoB x hx h.2.2.2.2
      · exact h.2.2.2.1 hx
  | r2 p r k =>
    obtain ⟨h1, P, R, hP, hR, e⟩ := h
    subst e
    exact ⟨ret h1, P, R, hP.frame (fun x hx => hL x (by simp [hx])), hR.frame (fun x hx => hL x (by simp [hx])), rfl⟩
  | a0 r k => exact ⟨ret h.1, h.2.frame hL⟩
  | a1 r k => exact ⟨ret h.1, h.2.1.frame hL, fun e => h.2.2 (List.append_eq_nil_iff.1 e).2⟩
  | a2 q r k => exact ⟨ret h.1, h.2.1.frame hL, List.mem_append_right _ h.2.2⟩
  | c0 x => exact ⟨h.1, can h.2.1, h.2.2⟩
  | c1 x => exact ⟨h.1, can h.2.1, List.mem_append_right _ h.2.2⟩
  | c2 x n => exact ⟨h.1, can h.2.1, List.mem_append_right _ h.2.2.1, by rw [hC x h.2.2.1]; exact h.2.2.2⟩
  | c3 x n p =>
    obtain ⟨h1, h2, h3, C1, C2, e, h4⟩ := h
    refine ⟨h1, can h2, ?_, A ++ C1, C2, by rw [e, List.append_assoc], ?_⟩
    · rw [hC n (by rw [e]; simp)]; exact h3
    · intro hx
      rw [List.append_assoc] at hx
      rcases List.mem_append.1 hx with hx | hx
      · exact hA x hx
      · exact hr x (h4 hx)

theorem Recent.mono {s s' : St} (hl : ∃ l, s'.log = s.log ++ l) (hs : s'.start = s.start) (x : Nat) (h : Recent s x)
    (hst : s.start ≤ s.log.length) : Recent s' x := by
  obtain ⟨l, hl⟩ := hl
  obtain ⟨e, he, hp⟩ := h
  refine ⟨e, ?_, hp⟩
  rw [hl, hs, List.drop_append_of_le_length hst]
  exact List.mem_append_left _ he

theorem WasEmpty.mono {s s' : St} (hl : ∃ l, s'.log = s.log ++ l) (hs : s'.start = s.start) (hm : s'.mark = s.mark)
    (h : WasEmpty s) : WasEmpty s' := by
  obtain ⟨l, hl⟩ := hl
  obtain ⟨h1, h2, h3⟩ := h
  refine ⟨by rw [hs, hm]; exact h1, by rw [hm, hl, List.length_append]; omega, ?_⟩
  rw [hm, hl, List.take_append_of_le_length h2]; exact h3

/-! ## The posters -/

theorem pstep_inv {s s' : St} {C N L : List Nat} (i : Inv s C N L) {t : Nat} {op : Op}
    (h : pstep false s t op = some s') : ∃ C' N', Inv s' C' N' L := by
  have hpc := i.pcs t
  unfold pstep at h
  cases hp : s.pc t with
  | idle =>
    have hnp : t ∉ s.uncounted := fun hm => by rw [(i.unc2 t).1 hm] at hp; cases hp
    have beg : ∀ b x s', s.begin t b x = some s' → Inv s' C N L := by
      intro b x s' h
      unfold St.begin at h
      split at h
      · rename_i ho
        split at h
        · cases h; exact i
        · rename_i hx
          cases h
          refine ⟨i.rep, i.lc, i.ln, i.nodup, i.own, ?_, ?_, i.wok, i.safe, i.cnt, i.unc, ?_, i.st⟩
          · intro y u hy
            by_cases hu : u = t
            · subst hu
              right
              rcases i.free y u hy with h | h
              · rw [hp] at h; exact h.elim
              · exact h
            · rcases i.free y u hy with h | h
              · left; show (upd s.pc t _ u).has y; rw [upd_ne _ _ hu]; exact h
              · right; exact h
          · intro u
            show pcOk s u (upd s.pc t _ u)
            by_cases hu : u = t
            · subst hu; rw [upd_same]
              exact ⟨fun e => hx (Or.inl e), ho⟩
            · rw [upd_ne _ _ hu]; exact i.pcs u
          · intro u
            show u ∈ s.uncounted ↔ upd s.pc t _ u = _
            by_cases hu : u = t
            · subst hu; rw [upd_same]
              exact ⟨fun h => absurd h hnp, fun h => by cases h⟩
            · rw [upd_ne _ _ hu]; exact i.unc2 u
      · cases h
    rw [hp] at h
    cases op with
    | post x => exact ⟨C, N, beg _ _ _ h⟩
    | prio x => exact ⟨C, N, beg _ _ _ h⟩
    | give x u =>
      simp only at h
      split at h
      · rename_i ho
        cases h
        have hne : ∀ y, s.owner y = none → upd s.owner x (some u) y = none := by
          intro y hy
          rw [upd_ne _ _ (fun e => by rw [e, ho] at hy; cases hy)]; exact hy
        refine ⟨C, N, i.rep, i.lc, i.ln, i.nodup, fun y hy => hne y (i.own y hy), ?_, ?_, ?_, i.safe, i.cnt, i.unc, i.unc2, i.st⟩
        · intro y v hy
          change upd s.owner x (some u) y = some v at hy
          by_cases hyx : y = x
          · subst hyx
            rcases i.free y t ho with h | h
            · rw [hp] at h; exact h.elim
            · exact Or.inr h
          · rw [upd_ne _ _ hyx] at hy; exact i.free y v hy
        · intro v
          have hv := i.pcs v
          show pcOk _ v (s.pc v)
          cases hq : s.pc v with
          | idle => trivial
          | p3 => trivial
          | p2 b y o => rw [hq] at hv; exact hv
          | p0 b y =>
            rw [hq] at hv
            refine ⟨hv.1, ?_⟩
            show upd s.owner x (some u) y = some v
            have : y ≠ x := by
              rintro rfl
              have e := hv.2; rw [ho] at e; cases e
              rw [hp] at hq; cases hq
            rw [upd_ne _ _ this]; exact hv.2
          | p1 b y =>
            rw [hq] at hv
            refine ⟨hv.1, ?_⟩
            show upd s.owner x (some u) y = some v
            have : y ≠ x := by
              rintro rfl
              have e := hv.2; rw [ho] at e; cases e
              rw [hp] at hq; cases hq
            rw [upd_ne _ _ this]; exact hv.2
        · exact i.wok.frame (A := []) (B := []) (fun _ _ => rfl) hne (fun _ h => h) (fun h => h)
            (by intro _ h; cases h) (by intro _ h; cases h) (by intro _ h; cases h) (by intro _ h; cases h)
      · cases h
    | pump => cases h
    | flush => cases h
    | cancel x => cases h
  | p0 b x =>
    rw [hp] at h hpc
    cases h
    have hx : ∀ y ∈ C ++ L ++ N, y ≠ x := by
      rintro y hy rfl; have e := hpc.2; rw [i.own y hy] at e; cases e
    have hnp : t ∉ s.uncounted := fun hm => by rw [(i.unc2 t).1 hm] at hp; cases hp
    refine ⟨C, N, i.rep, ?_, ?_, i.nodup, i.own, ?_, ?_, ?_, i.safe, i.cnt, i.unc, ?_, i.st⟩
    · exact i.lc.frame (fun y hy => upd_ne _ _ (hx y (by simp [hy])))
    · exact i.ln.frame (fun y hy => upd_ne _ _ (hx y (by simp [hy])))
    · intro y u hy
      show (upd s.pc t _ u).has y ∨ upd s.next x _ y = 0
      by_cases hu : u = t
      · subst hu
        rw [upd_same]
        by_cases hyx : y = x
        · left; exact hyx.symm
        · right
          rw [upd_ne _ _ hyx]
          rcases i.free y u hy with h | h
          · rw [hp] at h; exact absurd h.symm hyx
          · exact h
      · rw [upd_ne _ _ hu]
        have hyx : y ≠ x := by
          rintro rfl; have := hpc.2; rw [show s.owner y = some u from hy] at this; cases this; exact hu rfl
        rw [upd_ne _ _ hyx]; exact i.free y u hy
    · intro u
      show pcOk s u (upd s.pc t _ u)
      by_cases hu : u = t
      · subst hu; rw [upd_same]; exact hpc
      · rw [upd_ne _ _ hu]; exact i.pcs u
    · exact i.wok.frame (A := []) (B := []) (fun y hy => upd_ne _ _ (hx y (List.mem_append_left _ hy))) (fun _ h => h) (fun _ h => h) (fun h => h)
        (by intro _ h; cases h) (by intro _ h; cases h) (by intro _ h; cases h) (by intro _ h; cases h)
    · intro u
      show u ∈ s.uncounted ↔ upd s.pc t _ u = _
      by_cases hu : u = t
      · subst hu; rw [upd_same]
        exact ⟨fun h => absurd h hnp, fun h => by cases h⟩
      · rw [upd_ne _ _ hu]; exact i.unc2 u
  | p1 b x =>
    rw [hp] at h hpc
    have hx : ∀ y ∈ C ++ L ++ N, y ≠ x := by
      rintro y hy rfl; have e := hpc.2; rw [i.own y hy] at e; cases e
    have hnp : t ∉ s.uncounted := fun hm => by rw [(i.unc2 t).1 hm] at hp; cases hp
    simp only at h
    split at h
    · rename_i htop
      have hxL : x ∉ C ++ L ++ N := fun h => hx x h rfl
      have hne : ∀ y, s.owner y = none → upd s.owner x none y = none := by
        intro y hy
        by_cases e : y = x
        · rw [e, upd_same]
        · rw [upd_ne _ _ e]; exact hy
      -- what does not depend on the kind of the message
      have free : ∀ y u, upd s.owner x none y = some u → (upd s.pc t PPC.p3 u).has y ∨ s.next y = 0 := by
        intro y u hy
        have hyx : y ≠ x := by rintro rfl; rw [upd_same] at hy; cases hy
        rw [upd_ne _ _ hyx] at hy
        by_cases hu : u = t
        · subst hu
          right
          rcases i.free y u hy with h | h
          · rw [hp] at h; exact absurd h.symm hyx
          · exact h
        · rw [upd_ne _ _ hu]; exact i.free y u hy
      have pcs : ∀ (s' : St), s'.owner = upd s.owner x none → ∀ u, pcOk s' u (upd s.pc t PPC.p3 u) := by
        intro s' hs' u
        by_cases hu : u = t
        · subst hu; rw [upd_same]; trivial
        · rw [upd_ne _ _ hu]
          have hv := i.pcs u
          cases hq : s.pc u with
          | idle => trivial
          | p3 => trivial
          | p2 b y o => rw [hq] at hv; exact hv
          | p0 b y =>
            rw [hq] at hv
            refine ⟨hv.1, ?_⟩
            rw [hs', upd_ne _ _ (fun e => by subst e; have := hv.2; rw [hpc.2] at this; cases this; exact hu rfl)]
            exact hv.2
          | p1 b y =>
            rw [hq] at hv
            refine ⟨hv.1, ?_⟩
            rw [hs', upd_ne _ _ (fun e => by subst e; have := hv.2; rw [hpc.2] at this; cases this; exact hu rfl)]
            exact hv.2
      have unc : (s.uncounted ++ [t]).Nodup := by
        rw [List.nodup_append]
        exact ⟨i.unc, by simp, by intro a ha b hb; simp at hb; subst hb; rintro rfl; exact hnp ha⟩
      have unc2 : ∀ u, u ∈ s.uncounted ++ [t] ↔ upd s.pc t PPC.p3 u = PPC.p3 := by
        intro u
        by_cases hu : u = t
        · subst hu; rw [upd_same]; simp
        · rw [upd_ne _ _ hu]; simp only [List.mem_append, List.mem_singleton, hu, or_false]; exact i.unc2 u
      have hox : s.owner x ≠ none := by rw [hpc.2]; intro h; cases h
      cases b with
      | true =>
        cases h
        have htop : s.curTop = s.next x := htop
        refine ⟨x :: C, N, ?_, ⟨rfl, hpc.1, (show Linked s.next (s.next x) C by rw [← htop]; exact i.lc)⟩, i.ln, ?_, ?_, free, pcs _ rfl, ?_, i.safe, ?_, unc, unc2, ?_⟩
        · exact replay_snoc i.rep rfl
        · exact List.nodup_cons.2 ⟨hxL, i.nodup⟩
        · intro y hy
          rcases List.mem_cons.1 (show y ∈ x :: (C ++ L ++ N) from hy) with rfl | hy
          · exact upd_same _ _ _
          · exact hne y (i.own y hy)
        · refine i.wok.frame (A := [x]) (B := []) (fun _ _ => rfl) hne ?_ ?_ ?_ ?_ ?_ ?_
          · intro y hy; exact Recent.mono (s := s) ⟨_, by rfl⟩ (by rfl) y hy i.st
          · intro h; exact WasEmpty.mono (s := s) ⟨_, by rfl⟩ (by rfl) (by rfl) h
          · intro y hy
            rw [List.mem_singleton] at hy; subst hy
            refine ⟨.prio t y, ?_, rfl⟩
            show _ ∈ (s.log ++ [Ev.prio t y]).drop s.start
            rw [List.drop_append_of_le_length i.st]; simp
          · intro _ h; cases h
          · intro y hy; rw [List.mem_singleton] at hy; subst hy; exact hox
          · intro _ h; cases h
        · have := i.cnt
          simp [St.push] at *; omega
        · show s.start ≤ (s.log ++ [_]).length
          have := i.st; simp; omega
      | false =>
        cases h
        have htop : s.newTop = s.next x := htop
        refine ⟨C, x :: N, ?_, i.lc, ⟨rfl, hpc.1, (show Linked s.next (s.next x) N by rw [← htop]; exact i.ln)⟩, ?_, ?_, free, pcs _ rfl, ?_, i.safe, ?_, unc, unc2, ?_⟩
        · have := replay_snoc (e := .post t x) i.rep rfl
          rw [List.reverse_cons, ← List.append_assoc]; exact this
        · have := i.nodup
          rw [List.nodup_append] at this ⊢
          refine ⟨this.1, List.nodup_cons.2 ⟨fun h => hxL (by simp [h]), this.2.1⟩, ?_⟩
          intro a ha b hb
          rcases List.mem_cons.1 hb with rfl | hb
          · rintro rfl; exact hxL (List.mem_append_left _ ha)
          · exact this.2.2 a ha b hb
        · intro y hy
          by_cases e : y = x
          · rw [e]; exact upd_same _ _ _
          · refine hne y (i.own y ?_)
            rcases List.mem_append.1 hy with h | h
            · exact List.mem_append_left _ h
            · rcases List.mem_cons.1 h with h | h
              · exact absurd h e
              · exact List.mem_append_right _ h
        · refine i.wok.frame (A := []) (B := [x]) (fun _ _ => rfl) hne ?_ ?_ ?_ ?_ ?_ ?_
          · intro y hy; exact Recent.mono (s := s) ⟨_, by rfl⟩ (by rfl) y hy i.st
          · intro h; exact WasEmpty.mono (s := s) ⟨_, by rfl⟩ (by rfl) (by rfl) h
          · intro _ h; cases h
          · intro y hy
            rw [List.mem_singleton] at hy; subst hy
            refine ⟨.post t y, ?_, rfl⟩
            show _ ∈ (s.log ++ [Ev.post t y]).drop s.start
            rw [List.drop_append_of_le_length i.st]; simp
          · intro _ h; cases h
          · intro y hy; rw [List.mem_singleton] at hy; subst hy; exact hox
        · have := i.cnt
          simp [St.push] at *; omega
        · show s.start ≤ (s.log ++ [_]).length
          have := i.st; simp; omega
    · cases h
      refine ⟨C, N, i.rep, ?_, ?_, i.nodup, i.own, ?_, ?_, ?_, i.safe, i.cnt, i.unc, ?_, i.st⟩
      · exact i.lc.frame (fun y hy => upd_ne _ _ (hx y (by simp [hy])))
      · exact i.ln.frame (fun y hy => upd_ne _ _ (hx y (by simp [hy])))
      · intro y u hy
        show (upd s.pc t _ u).has y ∨ upd s.next x _ y = 0
        by_cases hyx : y = x
        · subst hyx; right; rw [upd_same]
        · rw [upd_ne _ _ hyx]
          by_cases hu : u = t
          · subst hu
            right
            rcases i.free y u hy with h | h
            · rw [hp] at h; exact absurd h.symm hyx
            · exact h
          · rw [upd_ne _ _ hu]; exact i.free y u hy
      · intro u
        show pcOk s u (upd s.pc t _ u)
        by_cases hu : u = t
        · subst hu; rw [upd_same]; exact hpc
        · rw [upd_ne _ _ hu]; exact i.pcs u
      · exact i.wok.frame (A := []) (B := []) (fun y hy => upd_ne _ _ (hx y (List.mem_append_left _ hy))) (fun _ h => h) (fun _ h => h) (fun h => h)
          (by intro _ h; cases h) (by intro _ h; cases h) (by intro _ h; cases h) (by intro _ h; cases h)
      · intro u
        show u ∈ s.uncounted ↔ upd s.pc t _ u = _
        by_cases hu : u = t
        · subst hu; rw [upd_same]
          exact ⟨fun h => absurd h hnp, fun h => by cases h⟩
        · rw [upd_ne _ _ hu]; exact i.unc2 u
  | p2 b x o => rw [hp] at hpc; exact hpc.elim
  | p3 =>
    rw [hp] at h
    cases h
    have hm : t ∈ s.uncounted := (i.unc2 t).2 hp
    refine ⟨C, N, i.rep, i.lc, i.ln, i.nodup, i.own, ?_, ?_, i.wok, i.safe, ?_, i.unc.erase t, ?_, i.st⟩
    · intro y u hy
      rcases i.free y u hy with h | h
      · left
        show (upd s.pc t _ u).has y
        have hu : u ≠ t := by rintro rfl; rw [hp] at h; exact h
        rw [upd_ne _ _ hu]; exact h
      · exact Or.inr h
    · intro u
      show pcOk s u (upd s.pc t _ u)
      by_cases hu : u = t
      · subst hu; rw [upd_same]; trivial
      · rw [upd_ne _ _ hu]; exact i.pcs u
    · have h1 := i.cnt
      have h2 := List.length_erase_of_mem hm
      have h3 : 0 < s.uncounted.length := List.length_pos_of_mem hm
      show s.queueLen + 1 + ((s.uncounted.erase t).length : Int) = ((C ++ L ++ N).length : Int) + held s.w
      rw [h2]
      omega
    · intro u
      show u ∈ s.uncounted.erase t ↔ upd s.pc t _ u = _
      by_cases hu : u = t
      · subst hu; rw [upd_same, i.unc.mem_erase_iff]; simp
      · rw [upd_ne _ _ hu, i.unc.mem_erase_iff]; simp only [ne_eq, hu, not_false_eq_true, true_and]; exact i.unc2 u

/-! ## The worker -/

/-- The transition changes only the worker's place. -/
theorem Inv.goto {s : St} {C N L : List Nat} (i : Inv s C N L) {w : WPC} (hh : held w = held s.w)
    (hw : wOk s.next s.owner (Recent s) (WasEmpty s) C N L w) : Inv { s with w := w } C N L :=
  ⟨i.rep, i.lc, i.ln, i.nodup, i.own, i.free, i.pcs, hw, i.safe, by rw [hh]; exact i.cnt, i.unc, i.unc2, i.st⟩

/-- The worker begins a call. -/
theorem Inv.begin {s : St} {C N L : List Nat} (i : Inv s C N L) {w : WPC} (hh : held w = held s.w)
    (hw : L = [] → ∀ rec emp, wOk s.next s.owner rec emp C N L w) (hL : L = []) : Inv { s with w := w, start := s.log.length } C N L :=
  ⟨i.rep, i.lc, i.ln, i.nodup, i.own, i.free, i.pcs, hw hL _ _, i.safe, by rw [hh]; exact i.cnt, i.unc, i.unc2, Nat.le_refl _⟩

/-- The message the worker holds becomes its own. -/
theorem Inv.took {s : St} {C N L : List Nat} (i : Inv s C N L) {x : Nat} {w : WPC} (hL : L = [] ) (hC : x ∉ C) (hN : x ∉ N)
    (ho : s.owner x = none) (hh : held s.w = 1) (hw0 : held w = 0)
    (hw : ∀ next owner, wOk next owner (Recent s) (WasEmpty s) C N L w) : Inv (s.took x w) C N L := by
  subst hL
  have hpc : ∀ t, ¬ (s.pc t).has x := by
    intro t hx
    have := i.pcs t
    cases hp : s.pc t <;> rw [hp] at hx this <;> first | exact hx | (cases hx; have e := this.2; rw [ho] at e; cases e) | exact this
  refine ⟨i.rep, linked_upd i.lc hC, linked_upd i.ln hN, i.nodup, ?_, ?_, ?_, hw _ _, i.safe, ?_, i.unc, i.unc2, i.st⟩
  · intro y hy
    show upd s.owner x (some 0) y = none
    rw [upd_ne]
    · exact i.own y hy
    · rintro rfl
      simp only [List.append_nil, List.mem_append] at hy
      rcases hy with hy | hy
      · exact hC hy
      · exact hN hy
  · intro y t hy
    change upd s.owner x (some 0) y = some t at hy
    show (s.pc t).has y ∨ upd s.next x 0 y = 0
    by_cases e : y = x
    · right; rw [e, upd_same]
    · rw [upd_ne _ _ e] at hy ⊢; exact i.free y t hy
  · intro t
    have := i.pcs t
    show pcOk (s.took x w) t (s.pc t)
    have hx := hpc t
    cases hp : s.pc t with
    | idle => trivial
    | p3 => trivial
    | p2 b y o => rw [hp] at this; exact this
    | p0 b y =>
      rw [hp] at this hx
      exact ⟨this.1, by show upd s.owner x (some 0) y = some t; rw [upd_ne _ _ hx]; exact this.2⟩
    | p1 b y =>
      rw [hp] at this hx
      exact ⟨this.1, by show upd s.owner x (some 0) y = some t; rw [upd_ne _ _ hx]; exact this.2⟩
  · have := i.cnt
    rw [hh] at this
    show s.queueLen - 1 + (s.uncounted.length : Int) = ((C ++ [] ++ N).length : Int) + held w
    rw [hw0]; omega

/-- Only `log` and the first list change: the first message is taken. -/
theorem Inv.pop {s : St} {C N : List Nat} {x : Nat} {e : Ev} {w : WPC} (i : Inv s (x :: C) N []) (hh : held s.w = 0)
    (hh' : held w = 1) (ha : ∀ q, apply (x :: q) e = some q)
    (hw : x ≠ 0 ∧ x ∉ C ∧ x ∉ N ∧ s.owner x = none → ∀ rec emp, wOk s.next s.owner rec emp C N [] w) :
    Inv { s with curTop := s.next x, log := s.log ++ [e], w := w } C N [] := by
  have hn : x ∉ C ++ [] ++ N ∧ (C ++ [] ++ N).Nodup := List.nodup_cons.1 i.nodup
  refine ⟨replay_snoc i.rep (ha _), i.lc.2.2, i.ln, hn.2, fun y hy => i.own y (List.mem_cons_of_mem _ hy), i.free, i.pcs, ?_, i.safe, ?_, i.unc, i.unc2, ?_⟩
  · exact hw ⟨i.lc.2.1, fun h => hn.1 (by simp [h]), fun h => hn.1 (by simp [h]), i.own x (by simp)⟩ _ _
  · have := i.cnt
    rw [hh] at this
    show s.queueLen + (s.uncounted.length : Int) = ((C ++ [] ++ N).length : Int) + held w
    rw [hh']
    simp at this ⊢; omega
  · show s.start ≤ (s.log ++ [e]).length
    have := i.st; simp; omega

theorem apply_head_run (x : Nat) (q : List Nat) : apply (x :: q) (.run x) = some q := by simp [apply]

theorem apply_head_rej (x : Nat) (q : List Nat) : apply (x :: q) (.rej x) = some q := by simp [apply]

/-- The message to be cancelled is not null. -/
def WPC.cancelOk : WPC → Prop
  | .r0 (.cancel x) | .r1 _ (.cancel x) | .r2 _ _ (.cancel x) | .a0 _ (.cancel x) | .a1 _ (.cancel x) | .a2 _ _ (.cancel x) => x ≠ 0
  | .c0 x | .c1 x | .c2 x _ | .c3 x _ _ => x ≠ 0
  | _ => True

theorem cancelOk_pc {k : Ret} (h : ∀ x, k = .cancel x → x ≠ 0) : k.pc.cancelOk := by
  cases k with
  | cancel x => exact h x rfl
  | next m => trivial
  | flush => trivial

theorem held_pc (k : Ret) : held k.pc = 0 := by cases k <;> rfl

theorem wstep_cancelOk {s s' : St} (h : s.w.cancelOk) {op : Op} (hs : wstep s op = some s') : s'.w.cancelOk := by
  unfold wstep at hs
  cases hw : s.w with
  | idle =>
    rw [hw] at hs
    cases op <;> simp only at hs <;> first | (cases hs; done) | skip
    · cases hs; trivial
    · cases hs; trivial
    · split at hs
      · cases hs; rw [hw]; trivial
      · cases hs; assumption
  | r0 k =>
    rw [hw] at hs h; cases hs
    cases k <;> exact h
  | r1 p k =>
    rw [hw] at hs h
    simp only at hs
    split at hs <;> cases hs <;> cases k <;> exact h
  | r2 p r k =>
    rw [hw] at hs h
    simp only at hs
    split at hs <;> cases hs <;> cases k <;> exact h
  | a0 r k =>
    rw [hw] at hs h
    simp only at hs
    split at hs <;> cases hs <;> cases k <;> exact h
  | a1 r k =>
    rw [hw] at hs h
    simp only at hs
    split at hs
    · cases hs; exact h
    · cases hs; cases k <;> exact h
  | a2 q r k =>
    rw [hw] at hs h
    simp only at hs
    split at hs <;> cases hs <;> cases k <;> exact h
  | c0 x =>
    rw [hw] at hs h
    simp only at hs
    split at hs
    · cases hs; exact h
    · split at hs <;> cases hs <;> first | trivial | exact h
  | c1 x => rw [hw] at hs h; cases hs; exact h
  | c2 x n =>
    rw [hw] at hs h
    simp only at hs
    split at hs <;> cases hs <;> first | trivial | exact h
  | c3 x n p =>
    rw [hw] at hs h
    simp only at hs
    split at hs
    · cases hs; trivial
    · split at hs <;> cases hs <;> first | trivial | exact h
  | g0 m => rw [hw] at hs; cases hs; show WPC.cancelOk (if _ then _ else _); split <;> trivial
  | g1 m => rw [hw] at hs; simp only at hs; split at hs <;> cases hs <;> trivial
  | g2 m x => rw [hw] at hs; cases hs; trivial
  | g3 m x n => rw [hw] at hs; simp only at hs; split at hs <;> cases hs <;> trivial
  | g4 m => rw [hw] at hs; simp only at hs; split at hs <;> cases hs <;> (first | trivial | (rw [hw]; trivial))
  | g5 m x => rw [hw] at hs; cases hs; cases m <;> trivial
  | c4 x => rw [hw] at hs; cases hs; trivial

theorem wstep_inv {s s' : St} {C N L : List Nat} (i : Inv s C N L) (hc : s.w.cancelOk) {op : Op}
    (h : wstep s op = some s') : ∃ C' N' L', Inv s' C' N' L' := by
  have w := i.wok
  unfold wstep at h
  cases hw : s.w with
  | idle =>
    rw [hw] at h w
    cases op with
    | pump => cases h; exact ⟨C, N, L, i.begin (by rw [hw]; rfl) (fun h _ _ => h) w⟩
    | flush => cases h; exact ⟨C, N, L, i.begin (by rw [hw]; rfl) (fun h _ _ => h) w⟩
    | cancel x =>
      simp only at h
      split at h
      · cases h; exact ⟨C, N, L, i⟩
      · cases h; exact ⟨C, N, L, i.begin (by rw [hw]; rfl) (fun h _ _ => h) w⟩
    | post x => cases h
    | prio x => cases h
    | give x u => cases h
  | g0 m =>
    rw [hw] at h w
    cases h
    refine ⟨C, N, L, i.goto ?_ ?_⟩
    · rw [hw]; split <;> rfl
    · split
      · exact w
      · rename_i h0
        refine ⟨w, fun e => ?_⟩
        subst e; exact absurd i.lc h0
  | g1 m =>
    rw [hw] at h w
    simp only at h
    split at h
    · cases h
      refine ⟨C, N, L, replay_snoc i.rep rfl, i.lc, i.ln, i.nodup, i.own, i.free, i.pcs, w.1, i.safe, ?_, i.unc, i.unc2, ?_⟩
      · have := i.cnt; rw [hw] at this; exact this
      · show s.start ≤ (s.log ++ [_]).length
        have := i.st; simp; omega
    · rename_i h0
      cases h
      obtain ⟨r, e, _⟩ := linked_ne i.lc h0
      exact ⟨C, N, L, i.goto (by rw [hw]; rfl) ⟨w.1, by rw [e]; simp⟩⟩
  | g2 m x =>
    rw [hw] at h w
    cases h
    exact ⟨C, N, L, i.goto (by rw [hw]; rfl) ⟨w.1, w.2, rfl⟩⟩
  | g3 m x n =>
    rw [hw] at h w
    simp only at h
    obtain ⟨rfl, hx, rfl⟩ := w
    split at h
    · rename_i h0
      cases h
      have hx0 : s.curTop ≠ 0 := by rw [h0]; exact linked_mem i.lc hx
      obtain ⟨r, e, _⟩ := linked_ne i.lc hx0
      rw [h0] at e; subst e
      refine ⟨r, N, [], i.pop (by rw [hw]; rfl) rfl ?_ (fun h _ _ => ⟨rfl, h⟩)⟩
      intro q; cases m
      · exact apply_head_run x q
      · exact apply_head_rej x q
    · cases h
      exact ⟨C, N, [], i.goto (by rw [hw]; rfl) ⟨rfl, fun e => by rw [e] at hx; cases hx⟩⟩
  | g4 m =>
    rw [hw] at h w
    simp only at h
    split at h
    · rename_i h0
      have := i.lc; rw [h0] at this
      exact absurd (linked_zero this) w.2
    · rename_i h0
      cases h
      obtain ⟨r, e, _⟩ := linked_ne i.lc h0
      exact ⟨C, N, L, i.goto (by rw [hw]; rfl) ⟨w.1, by rw [e]; simp⟩⟩
  | g5 m x =>
    rw [hw] at h w
    cases h
    refine ⟨C, N, L, i.took w.1 w.2.2.1 w.2.2.2.1 w.2.2.2.2 (by rw [hw]; rfl) ?_ ?_⟩
    · cases m <;> rfl
    · intro _ _; cases m <;> exact w.1
  | r0 k =>
    rw [hw] at h w
    cases h
    exact ⟨C, N, L, i.goto (by rw [hw]; rfl) w⟩
  | r1 p k =>
    rw [hw] at h w
    simp only at h
    split at h
    · rename_i h0
      cases h
      have hL : L = [] := w
      subst hL
      have hnd := i.nodup
      have key : List.Perm (C ++ N.reverse ++ []) (C ++ [] ++ N) := by
        simp only [List.append_nil]; exact List.Perm.append_left C (List.reverse_perm N)
      refine ⟨C, [], N.reverse, ?_, i.lc, rfl, (key.nodup_iff).2 i.nodup, fun y hy => i.own y (key.mem_iff.1 hy), i.free, i.pcs, ?_, i.safe, ?_, i.unc, i.unc2, i.st⟩
      · have := i.rep; simpa using this
      · refine ⟨?_, N, [], by rw [← h0]; exact i.ln, rfl, by simp⟩
        cases k with
        | next m =>
          intro e1 e2
          refine ⟨i.st, Nat.le_refl _, ?_⟩
          show replay [] (s.log.take s.log.length) = _
          rw [List.take_length, i.rep, e1, List.reverse_eq_nil_iff.1 e2]; rfl
        | flush => trivial
        | cancel x => intro h; cases h
      · have := i.cnt
        rw [hw] at this
        show s.queueLen + (s.uncounted.length : Int) = ((C ++ N.reverse ++ []).length : Int) + 0
        rw [key.length_eq]; exact this
    · cases h; exact ⟨C, N, L, i.goto (by rw [hw]; rfl) w⟩
  | r2 p r k =>
    rw [hw] at h w
    simp only at h
    obtain ⟨hk, P, R, hP, hR, e⟩ := w
    split at h
    · rename_i h0
      cases h
      subst h0
      have := linked_zero hP
      subst this
      exact ⟨C, N, L, i.goto (by rw [hw]; rfl) ⟨hk, by rw [e]; exact hR⟩⟩
    · rename_i h0
      cases h
      obtain ⟨P', e', hP'⟩ := linked_ne hP h0
      subst e'
      have hnd := i.nodup
      subst e
      have hsub : (p :: P' ++ R).Nodup := by
        have h1 : ((p :: P').reverse ++ R).Nodup :=
          ((List.sublist_append_right C _).trans (List.sublist_append_left _ N)).nodup hnd
        exact ((List.Perm.append_right R (List.reverse_perm _)).nodup_iff).1 h1
      have hpn := List.nodup_cons.1 hsub
      have hpL : p ∈ (p :: P').reverse ++ R := by simp
      have hdis : p ∉ C ∧ p ∉ N := by
        rw [List.nodup_append] at hnd
        refine ⟨fun h => ?_, fun h => hnd.2.2 p (List.mem_append_right _ hpL) p h rfl⟩
        have h1 := hnd.1
        rw [List.nodup_append] at h1
        exact h1.2.2 p h p hpL rfl
      refine ⟨C, N, (p :: P').reverse ++ R, i.rep, linked_upd i.lc hdis.1, linked_upd i.ln hdis.2, i.nodup, i.own, ?_, i.pcs, ?_, i.safe, ?_, i.unc, i.unc2, i.st⟩
      · intro y t hy
        rcases i.free y t hy with h | h
        · exact Or.inl h
        · right
          show upd s.next p r y = 0
          rw [upd_ne]
          · exact h
          · rintro rfl
            have := i.own y (List.mem_append_left _ (List.mem_append_right _ hpL))
            rw [show s.owner y = some t from hy] at this; cases this
      · refine ⟨hk, P', p :: R, linked_upd hP' (fun h => hpn.1 (by simp [h])), ⟨rfl, h0, ?_⟩, by simp⟩
        show Linked (upd s.next p r) (upd s.next p r p) R
        rw [upd_same]; exact linked_upd hR (fun h => hpn.1 (by simp [h]))
      · have := i.cnt; rw [hw] at this; exact this
  | a0 r k =>
    rw [hw] at h w hc
    simp only at h
    obtain ⟨hk, hr⟩ := w
    have hx : ∀ x, k = .cancel x → x ≠ 0 := by rintro x rfl; exact hc
    split at h
    · rename_i h0
      cases h
      have hC := i.lc; rw [h0] at hC
      have := linked_zero hC
      subst this
      refine ⟨L, N, [], ?_, hr, i.ln, ?_, ?_, i.free, i.pcs, ?_, i.safe, ?_, i.unc, i.unc2, i.st⟩
      · have := i.rep; simpa using this
      · have := i.nodup; simpa using this
      · intro y hy; exact i.own y (by simpa using hy)
      · cases k with
        | next m => exact ⟨rfl, fun e => hk rfl e⟩
        | flush => rfl
        | cancel x => exact ⟨rfl, hk, hx x rfl⟩
      · have := i.cnt
        rw [hw] at this
        show s.queueLen + (s.uncounted.length : Int) = ((L ++ [] ++ N).length : Int) + held k.pc
        rw [held_pc]
        simpa [held] using this
    · rename_i h0
      cases h
      exact ⟨C, N, L, i.goto (by rw [hw]; rfl) ⟨hk, hr, fun e => by subst e; exact h0 i.lc⟩⟩
  | a1 r k =>
    rw [hw] at h w
    simp only at h
    obtain ⟨hk, hr, hne⟩ := w
    split at h
    · rename_i h0
      have := i.lc; rw [h0] at this
      exact absurd (linked_zero this) hne
    · rename_i h0
      cases h
      obtain ⟨r', e, _⟩ := linked_ne i.lc h0
      exact ⟨C, N, L, i.goto (by rw [hw]; rfl) ⟨hk, hr, by rw [e]; simp⟩⟩
  | a2 q r k =>
    rw [hw] at h w hc
    simp only at h
    obtain ⟨hk, hr, hq⟩ := w
    have hx : ∀ x, k = .cancel x → x ≠ 0 := by rintro x rfl; exact hc
    obtain ⟨C1, C2, rfl⟩ := List.append_of_mem hq
    have hC2 := linked_split i.lc
    split at h
    · rename_i h0
      cases h
      rw [h0] at hC2
      have := linked_zero hC2
      subst this
      have hnd := i.nodup
      have e1 : C1 ++ [q] ++ L = C1 ++ q :: L := by simp
      have hqL : q ∉ L := by
        have h1 : (q :: L).Nodup := by
          have : (C1 ++ q :: L ++ N).Nodup := by rw [← e1]; exact hnd
          exact ((List.sublist_append_right C1 _).trans (List.sublist_append_left _ N)).nodup this
        exact (List.nodup_cons.1 h1).1
      have hqN : q ∉ N := by
        intro h
        rw [List.nodup_append] at hnd
        exact hnd.2.2 q (by simp) q h rfl
      refine ⟨C1 ++ q :: L, N, [], ?_, ?_, linked_upd i.ln hqN, ?_, ?_, ?_, i.pcs, ?_, i.safe, ?_, i.unc, i.unc2, i.st⟩
      · have := i.rep; rw [e1] at this; rw [List.append_nil]; exact this
      · exact linked_set i.lc ((List.sublist_append_left _ L).trans (List.sublist_append_left _ N) |>.nodup hnd) (linked_upd hr hqL)
      · rw [List.append_nil, ← e1]; exact hnd
      · intro y hy; rw [List.append_nil, ← e1] at hy; exact i.own y hy
      · intro y t hy
        rcases i.free y t hy with h | h
        · exact Or.inl h
        · right
          show upd s.next q r y = 0
          rw [upd_ne]
          · exact h
          · rintro rfl
            have := i.own y (by simp)
            rw [show s.owner y = some t from hy] at this; cases this
      · cases k with
        | next m => exact ⟨rfl, fun e => by simp at e⟩
        | flush => rfl
        | cancel x => exact ⟨rfl, hk, hx x rfl⟩
      · have := i.cnt
        rw [hw] at this
        show s.queueLen + (s.uncounted.length : Int) = ((C1 ++ q :: L ++ [] ++ N).length : Int) + held k.pc
        rw [held_pc, List.append_nil, ← e1]
        exact this
    · rename_i h0
      cases h
      obtain ⟨r', e, _⟩ := linked_ne hC2 h0
      exact ⟨_, N, L, i.goto (by rw [hw]; rfl) ⟨hk, hr, by rw [e]; simp⟩⟩
  | c0 x =>
    rw [hw] at h w
    simp only at h
    obtain ⟨rfl, hN, hx⟩ := w
    split at h
    · rename_i h0
      cases h
      obtain ⟨r, e, _⟩ := linked_ne i.lc (by rw [h0]; exact hx)
      exact ⟨C, N, [], i.goto (by rw [hw]; rfl) ⟨rfl, hN, by rw [e, h0]; simp⟩⟩
    · rename_i hne
      split at h
      · cases h; exact ⟨C, N, [], i.goto (by rw [hw]; rfl) rfl⟩
      · rename_i h0
        cases h
        obtain ⟨r, e, _⟩ := linked_ne i.lc h0
        refine ⟨C, N, [], i.goto (by rw [hw]; rfl) ⟨rfl, hN, rfl, [], r, e, ?_⟩⟩
        intro hm
        simp at hm; exact absurd hm.symm hne
  | c1 x =>
    rw [hw] at h w
    cases h
    exact ⟨C, N, L, i.goto (by rw [hw]; rfl) ⟨w.1, w.2.1, w.2.2, rfl⟩⟩
  | c2 x n =>
    rw [hw] at h w
    simp only at h
    obtain ⟨rfl, hN, hx, rfl⟩ := w
    have hx0 := linked_mem i.lc hx
    split at h
    · rename_i h0
      cases h
      obtain ⟨r, e, _⟩ := linked_ne i.lc (by rw [h0]; exact hx0)
      rw [h0] at e; subst e
      exact ⟨r, N, [], i.pop (by rw [hw]; rfl) rfl (apply_head_rej x) (fun h _ _ => ⟨rfl, h⟩)⟩
    · cases h
      exact ⟨C, N, [], i.goto (by rw [hw]; rfl) ⟨rfl, hN, hx0⟩⟩
  | c3 x n p =>
    rw [hw] at h w
    simp only at h
    obtain ⟨rfl, hN, rfl, C1, C2, rfl, hr⟩ := w
    have hC2 := linked_split i.lc
    split at h
    · cases h; exact ⟨_, N, [], i.goto (by rw [hw]; rfl) rfl⟩
    · rename_i h0
      obtain ⟨r, e, hr'⟩ := linked_ne hC2 h0
      split at h
      · rename_i hpx
        cases h
        rw [hpx] at e
        subst e
        rw [hpx] at hr'
        have hnd := i.nodup
        rw [List.append_nil] at hnd
        have hndC : (C1 ++ n :: x :: r).Nodup := (List.sublist_append_left _ N).nodup hnd
        have hsub : List.Sublist (C1 ++ n :: r ++ [] ++ N) (C1 ++ n :: x :: r ++ [] ++ N) := by
          simp only [List.append_nil]
          exact List.Sublist.append_right (List.Sublist.append_left ((List.sublist_cons_self x r).cons_cons n) C1) N
        have hnr : n ∉ r ∧ x ≠ n := by
          have h1 : (n :: x :: r).Nodup := (List.sublist_append_right C1 _).nodup hndC
          have h2 := (List.nodup_cons.1 h1).1
          exact ⟨fun h => h2 (by simp [h]), fun h => h2 (by simp [h])⟩
        have hxC : x ∉ C1 ++ n :: r := by
          have h1 : (x :: (C1 ++ n :: r)).Nodup := by
            refine (List.Perm.nodup_iff ?_).1 hndC
            exact (List.Perm.append_left C1 (List.Perm.swap x n r)).trans (List.perm_middle)
          exact (List.nodup_cons.1 h1).1
        have hxN : x ∉ N := by
          intro h
          rw [List.nodup_append] at hnd
          exact hnd.2.2 x (by simp) x h rfl
        have hnN : n ∉ N := by
          intro h
          rw [List.nodup_append] at hnd
          exact hnd.2.2 n (by simp) n h rfl
        refine ⟨C1 ++ n :: r, N, [], ?_, ?_, linked_upd i.ln hnN, hsub.nodup i.nodup, fun y hy => i.own y (hsub.mem hy), ?_, i.pcs, ?_, i.safe, ?_, i.unc, i.unc2, ?_⟩
        · refine replay_snoc i.rep ?_
          have hxm : x ∈ C1 ++ n :: x :: r ++ [] ++ N.reverse := by simp
          show (if _ then _ else _) = _
          rw [if_pos hxm]
          congr 1
          have h1 : x ∉ C1 := fun h => hxC (by simp [h])
          simp only [List.append_nil, List.append_assoc, List.cons_append]
          rw [List.erase_append_right _ h1]
          congr 1
          rw [List.erase_cons_tail (by simp; exact fun h => hnr.2 h.symm), List.erase_cons_head]
        · rw [hpx]
          exact linked_set i.lc hndC (linked_upd hr' hnr.1)
        · intro y t hy
          rcases i.free y t hy with h | h
          · exact Or.inl h
          · right
            show upd s.next n _ y = 0
            rw [upd_ne]
            · exact h
            · rintro rfl
              have := i.own y (by simp)
              rw [show s.owner y = some t from hy] at this; cases this
        · exact ⟨rfl, by rw [← hpx]; exact h0, hxC, hxN, i.own x (by simp)⟩
        · have := i.cnt
          rw [hw] at this
          show s.queueLen + (s.uncounted.length : Int) = ((C1 ++ n :: r ++ [] ++ N).length : Int) + 1
          simp [held] at this ⊢; omega
        · show s.start ≤ (s.log ++ [_]).length
          have := i.st; simp; omega
      · rename_i hpx
        cases h
        refine ⟨_, N, [], i.goto (by rw [hw]; rfl) ⟨rfl, hN, rfl, C1 ++ [n], r, by rw [e]; simp, ?_⟩⟩
        intro hm
        rcases List.mem_append.1 hm with hm | hm
        · exact hr hm
        · rw [List.mem_singleton] at hm; exact absurd hm.symm hpx
  | c4 x =>
    rw [hw] at h w
    cases h
    exact ⟨C, N, L, i.took w.1 w.2.2.1 w.2.2.2.1 w.2.2.2.2 (by rw [hw]; rfl) rfl (fun _ _ => w.1)⟩

theorem reach_inv {o : Nat → Nat} {s : St} (h : Reach false o s) : s.w.cancelOk ∧ ∃ C N L, Inv s C N L := by
  induction h with
  | init =>
    refine ⟨trivial, [], [], [], rfl, rfl, rfl, List.nodup_nil, (by intro _ h; cases h), (by intro _ _ _; right; rfl), (by intro _; trivial), rfl, rfl, rfl, List.nodup_nil, ?_, Nat.le_refl _⟩
    intro t; exact ⟨fun h => (List.not_mem_nil h).elim, fun h => (PPC.noConfusion h)⟩
  | step _ hs ih =>
    rename_i s s' a op _
    obtain ⟨hc, C, N, L, i⟩ := ih
    cases a with
    | none => exact ⟨wstep_cancelOk hc hs, wstep_inv i hc hs⟩
    | some t =>
      obtain ⟨C', N', i'⟩ := pstep_inv i (t := t) hs
      refine ⟨?_, C', N', L, i'⟩
      have : s'.w = s.w := by
        have hs : pstep false s t op = some s' := hs
        have beg : ∀ b x s', s.begin t b x = some s' → s'.w = s.w := by
          intro b x s' h
          unfold St.begin at h
          split at h
          · split at h <;> cases h <;> rfl
          · cases h
        unfold pstep at hs
        split at hs
        · split at hs
          · exact beg _ _ _ hs
          · exact beg _ _ _ hs
          · split at hs <;> cases hs; rfl
          · cases hs
        · cases hs; rfl
        · split at hs
          · cases hs; simp only [St.push]; split <;> rfl
          · cases hs; rfl
        · split at hs <;> cases hs <;> rfl
        · cases hs; rfl
      rw [this]; exact hc

/-! ## Results -/

/-- The ordinary messages posted, the messages run, the messages rejected, in order. -/
def posts : List Ev → List Nat
  | [] => []
  | .post _ x :: l => x :: posts l
  | _ :: l => posts l

def runs : List Ev → List Nat
  | [] => []
  | .run x :: l => x :: runs l
  | _ :: l => runs l

def rejects : List Ev → List Nat
  | [] => []
  | .rej x :: l => x :: rejects l
  | _ :: l => rejects l

def prios : List Ev → List Nat
  | [] => []
  | .prio _ x :: l => x :: prios l
  | _ :: l => prios l

/-- C42, with `late` false. Missing: compilers which read the right operand after the exchange
(`c42_violated`). At any time, with any number of posters, the events so far are those of a sequential
queue: ordinary messages join at the end, priority messages at the front, the worker runs the first
one; no null pointer is followed. -/
theorem c42_partial {o : Nat → Nat} {s : St} (h : Reach false o s) :
    s.ub = false ∧ ∃ q, replay [] s.log = some q ∧ q.Nodup ∧ ∀ x ∈ q, s.owner x = none := by
  obtain ⟨_, C, N, L, i⟩ := reach_inv h
  have hp : List.Perm (C ++ L ++ N.reverse) (C ++ L ++ N) := List.Perm.append_left _ (List.reverse_perm N)
  exact ⟨i.safe, _, i.rep, hp.nodup_iff.2 i.nodup, fun x hx => i.own x (hp.mem_iff.1 hx)⟩

theorem replay_count (x : Nat) (l : List Ev) : ∀ {q q' : List Nat}, replay q l = some q' →
    q.count x + (posts l).count x + (prios l).count x = (runs l).count x + (rejects l).count x + q'.count x := by
  induction l with
  | nil => intro q q' h; cases h; simp [posts, prios, runs, rejects]
  | cons e l ih =>
    intro q q' h
    simp only [replay] at h
    cases ha : apply q e with
    | none => rw [ha] at h; cases h
    | some q1 =>
      rw [ha] at h
      have := ih h
      cases e with
      | post t y =>
        cases ha
        simp only [posts, prios, runs, rejects, List.count_append, List.count_cons, List.count_nil] at this ⊢; omega
      | prio t y =>
        cases ha
        simp only [posts, prios, runs, rejects, List.count_cons] at this ⊢; omega
      | none => cases ha; simpa [posts, prios, runs, rejects] using this
      | run y =>
        simp only [apply] at ha
        split at ha
        · rename_i hq
          cases ha
          cases q with
          | nil => cases hq
          | cons z q =>
            simp only [List.head?_cons, Option.some.injEq] at hq
            subst hq
            simp only [posts, prios, runs, rejects, List.count_cons, List.tail_cons] at this ⊢; omega
        · cases ha
      | rej y =>
        simp only [apply] at ha
        split at ha
        · rename_i hq
          cases ha
          simp only [posts, prios, runs, rejects, List.count_cons] at this ⊢
          have h1 := (List.perm_cons_erase hq).count_eq x
          rw [List.count_cons] at h1
          omega
        · cases ha

/-- C42, with `late` false: every message is handled exactly as often as it was posted, but for the
messages still in the queue, which are there once. -/
theorem c42_once_partial {o : Nat → Nat} {s : St} (h : Reach false o s) : ∃ q, replay [] s.log = some q ∧ q.Nodup ∧
    ∀ x, (posts s.log).count x + (prios s.log).count x = (runs s.log).count x + (rejects s.log).count x + q.count x := by
  obtain ⟨_, q, hq, hn, _⟩ := c42_partial h
  refine ⟨q, hq, hn, fun x => ?_⟩
  have := replay_count x s.log hq
  simpa using this

theorem replay_order (P : Nat → Bool) (l : List Ev) : ∀ {q q' : List Nat}, replay q l = some q' →
    (∀ x ∈ prios l, P x = false) →
    List.Sublist ((runs l).filter P ++ q'.filter P) (q.filter P ++ (posts l).filter P) ∧
    (rejects l = [] → (runs l).filter P ++ q'.filter P = q.filter P ++ (posts l).filter P) := by
  induction l with
  | nil => intro q q' h _; cases h; simp [posts, runs]
  | cons e l ih =>
    intro q q' h hp
    simp only [replay] at h
    cases ha : apply q e with
    | none => rw [ha] at h; cases h
    | some q1 =>
      rw [ha] at h
      cases e with
      | post t y =>
        cases ha
        have := ih h hp
        simp only [posts, runs, rejects] at this ⊢
        have e : (q ++ [y]).filter P ++ (posts l).filter P = q.filter P ++ (y :: posts l).filter P := by
          rw [← List.filter_append, ← List.filter_append, List.append_assoc]; rfl
        rw [e] at this
        exact this
      | prio t y =>
        cases ha
        have hy : P y = false := hp y (by simp [prios])
        have := ih h (fun x hx => hp x (by simp [prios, hx]))
        simp only [posts, runs, rejects] at this ⊢
        rw [List.filter_cons_of_neg (by simp [hy])] at this
        exact this
      | none => cases ha; exact ih h hp
      | run y =>
        simp only [apply] at ha
        split at ha
        · rename_i hq
          cases ha
          cases q with
          | nil => cases hq
          | cons z q =>
            simp only [List.head?_cons, Option.some.injEq] at hq
            subst hq
            have := ih h hp
            simp only [posts, runs, rejects, List.tail_cons] at this ⊢
            by_cases hz : P z = true
            · rw [List.filter_cons_of_pos hz, List.filter_cons_of_pos hz]
              exact ⟨this.1.cons_cons z, fun hr => by rw [List.cons_append, List.cons_append, this.2 hr]⟩
            · rw [List.filter_cons_of_neg hz, List.filter_cons_of_neg hz]; exact this
        · cases ha
      | rej y =>
        simp only [apply] at ha
        split at ha
        · cases ha
          have := ih h hp
          simp only [posts, runs, rejects] at this ⊢
          exact ⟨this.1.trans ((List.erase_sublist.filter P).append_right _), by intro h; cases h⟩
        · cases ha

/-- C42, with `late` false: ordinary messages (those satisfying `P`, none of which was posted with
priority) are run in the order of posting, whoever posts them; if nothing was rejected, none is left out. -/
theorem c42_order_partial {o : Nat → Nat} {s : St} (h : Reach false o s) (P : Nat → Bool)
    (hP : ∀ x ∈ prios s.log, P x = false) :
    List.Sublist ((runs s.log).filter P) ((posts s.log).filter P) ∧
    (rejects s.log = [] → (runs s.log).filter P <+: (posts s.log).filter P) := by
  obtain ⟨_, q, hq, _, _⟩ := c42_partial h
  obtain ⟨h1, h2⟩ := replay_order P s.log hq hP
  simp only [List.filter_nil, List.nil_append] at h1 h2
  exact ⟨(List.sublist_append_left _ _).trans h1, fun hr => ⟨_, h2 hr⟩⟩

/-- C42, with `late` false: the worker finds the queue empty only if it was empty at some time during the call. -/
theorem c42_empty_partial {o : Nat → Nat} {s s' : St} (h : Reach false o s) {op : Op} (hs : step false s none op = some s')
    (he : s'.log = s.log ++ [.none]) : ∃ k, s.start ≤ k ∧ k ≤ s.log.length ∧ replay [] (s.log.take k) = some [] := by
  obtain ⟨_, C, N, L, i⟩ := reach_inv h
  have hs : wstep s op = some s' := hs
  have w := i.wok
  have hne : ∀ l : List Ev, l ≠ l ++ [Ev.none] := by
    intro l h
    have := congrArg List.length h
    simp at this
  unfold wstep at hs
  cases hw : s.w <;> rw [hw] at hs w <;> simp only at hs
  case g1 m =>
    split at hs
    · rename_i h0
      have hl := i.lc; rw [h0] at hl
      obtain ⟨h1, h2, h3⟩ := w.2 (linked_zero hl)
      exact ⟨_, h1, h2, h3⟩
    · cases hs; exact absurd he (hne _)
  case idle =>
    cases op <;> simp only at hs <;> first | (cases hs; done) | skip
    · cases hs; exact absurd he (hne _)
    · cases hs; exact absurd he (hne _)
    · split at hs <;> cases hs <;> exact absurd he (hne _)
  case g0 => cases hs; exact absurd he (hne _)
  case g2 => cases hs; exact absurd he (hne _)
  case g3 m x n =>
    split at hs <;> cases hs
    · have := List.append_cancel_left he; cases m <;> cases this
    · exact absurd he (hne _)
  case g4 => split at hs <;> cases hs <;> exact absurd he (hne _)
  case g5 => cases hs; exact absurd he (hne _)
  case r0 => cases hs; exact absurd he (hne _)
  case r1 => split at hs <;> cases hs <;> exact absurd he (hne _)
  case r2 => split at hs <;> cases hs <;> exact absurd he (hne _)
  case a0 => split at hs <;> cases hs <;> exact absurd he (hne _)
  case a1 => split at hs <;> cases hs <;> exact absurd he (hne _)
  case a2 => split at hs <;> cases hs <;> exact absurd he (hne _)
  case c0 =>
    split at hs
    · cases hs; exact absurd he (hne _)
    · split at hs <;> cases hs <;> exact absurd he (hne _)
  case c1 => cases hs; exact absurd he (hne _)
  case c2 =>
    split at hs <;> cases hs
    · have := List.append_cancel_left he; cases this
    · exact absurd he (hne _)
  case c3 =>
    split at hs
    · cases hs; exact absurd he (hne _)
    · split at hs <;> cases hs
      · have := List.append_cancel_left he; cases this
      · exact absurd he (hne _)
  case c4 => cases hs; exact absurd he (hne _)

/-- The worker is in `wtCancelMessage(x)`. -/
def WPC.cancels (x : Nat) : WPC → Prop
  | .c0 y | .c1 y | .c2 y _ | .c3 y _ _ => y = x
  | _ => False

/-- C42, with `late` false: when `wtCancelMessage(x)` returns, `x` was rejected, or it is not in the
queue, or it was posted during the call. -/
theorem c42_cancel_partial {o : Nat → Nat} {s s' : St} (h : Reach false o s) {op : Op} {x : Nat} (hx : s.w.cancels x)
    (hs : step false s none op = some s') (hi : s'.w = .idle ∨ s'.w = .c4 x) :
    (s'.w = .c4 x ∧ s'.log = s.log ++ [.rej x]) ∨
    (s'.log = s.log ∧ ∃ q, replay [] s.log = some q ∧ (x ∈ q → ∃ e ∈ s.log.drop s.start, e.puts x)) := by
  obtain ⟨_, C, N, L, i⟩ := reach_inv h
  have hs : wstep s op = some s' := hs
  have w := i.wok
  unfold wstep at hs
  cases hw : s.w <;> rw [hw] at hs w hx <;> first | exact hx.elim | simp only at hs
  case c0 y =>
    cases hx
    obtain ⟨rfl, hN, _⟩ := w
    split at hs
    · cases hs; rcases hi with h | h <;> cases h
    · split at hs
      · rename_i h0
        cases hs
        right
        refine ⟨rfl, _, i.rep, fun hm => hN ?_⟩
        have hl := i.lc; rw [h0] at hl
        rw [linked_zero hl] at hm
        simpa using hm
      · cases hs; rcases hi with h | h <;> cases h
  case c1 y => cases hs; rcases hi with h | h <;> cases h
  case c2 y n =>
    cases hx
    split at hs
    · cases hs; left; exact ⟨rfl, rfl⟩
    · cases hs; rcases hi with h | h <;> cases h
  case c3 y n p =>
    cases hx
    obtain ⟨rfl, hN, rfl, C1, C2, rfl, hr⟩ := w
    split at hs
    · rename_i h0
      cases hs
      right
      have hl := linked_split i.lc; rw [h0] at hl
      have := linked_zero hl
      subst this
      refine ⟨rfl, _, i.rep, fun hm => ?_⟩
      simp only [List.append_nil, List.mem_append, List.mem_reverse] at hm
      rcases hm with hm | hm
      · exact hr (by simpa using hm)
      · exact hN hm
    · split at hs <;> cases hs
      · left; exact ⟨rfl, rfl⟩
      · rcases hi with h | h <;> cases h

/-- C42, with `late` false: a message which the poster owns is accepted. -/
theorem c42_accepted_partial {o : Nat → Nat} {s : St} (h : Reach false o s) {t x : Nat} (hp : s.pc t = .idle)
    (ho : s.owner x = some t) (hx : x ≠ 0) :
    step false s (some t) (.post x) = some { s with pc := upd s.pc t (.p0 false x) } ∧
    step false s (some t) (.prio x) = some { s with pc := upd s.pc t (.p0 true x) } := by
  obtain ⟨_, C, N, L, i⟩ := reach_inv h
  have h0 : s.next x = 0 := by
    rcases i.free x t ho with h | h
    · rw [hp] at h; exact h.elim
    · exact h
  constructor
  · show pstep false s t (.post x) = _
    unfold pstep; rw [hp]; simp [St.begin, ho, hx, h0]
  · show pstep false s t (.prio x) = _
    unfold pstep; rw [hp]; simp [St.begin, ho, hx, h0]

/-- C78. Missing: times when a poster has not yet counted its message or the worker still counts the
message it took (`c78_violated`). Otherwise `length()` is the number of messages in the queue. -/
theorem c78_partial {o : Nat → Nat} {s : St} (h : Reach false o s) (hp : ∀ t, s.pc t ≠ .p3)
    (hw : ∀ m x, s.w ≠ .g5 m x ∧ s.w ≠ .c4 x) : ∃ q, replay [] s.log = some q ∧ s.queueLen = q.length := by
  obtain ⟨_, C, N, L, i⟩ := reach_inv h
  refine ⟨_, i.rep, ?_⟩
  have h0 : s.uncounted = [] := by
    cases hu : s.uncounted with
    | nil => rfl
    | cons t l => exact absurd ((i.unc2 t).1 (by rw [hu]; simp)) (hp t)
  have h1 : held s.w = 0 := by
    cases hq : s.w <;> first | rfl | exact absurd hq (hw _ _).1 | exact absurd hq (hw .run _).2
  have := i.cnt
  rw [h0, h1] at this
  simp at this ⊢; omega

theorem exec_reach {late : Bool} {o : Nat → Nat} (l : List (Option Nat × Op)) : ∀ {s s' : St}, Reach late o s →
    exec late s l = some s' → Reach late o s' := by
  induction l with
  | nil => intro s s' h e; cases e; exact h
  | cons x l ih =>
    intro s s' h e
    obtain ⟨a, op⟩ := x
    simp only [exec] at e
    cases hs : step late s a op with
    | none => rw [hs] at e; cases e
    | some s1 => rw [hs] at e; exact ih (.step h hs) e

/-- `n` transitions of the same agent inside its call. -/
def go (a : Option Nat) (n : Nat) : List (Option Nat × Op) := List.replicate n (a, .pump)

theorem exec_some {late : Bool} {o : Nat → Nat} {β : Type} {l : List (Option Nat × Op)} {f : St → β} {v : β}
    (h : (exec late { owner := fun x => some (o x) } l).map f = some v) : ∃ s, Reach late o s ∧ f s = v := by
  cases e : exec late { owner := fun x => some (o x) } l with
  | none => rw [e] at h; cases h
  | some s => rw [e] at h; cases h; exact ⟨s, exec_reach l .init e, rfl⟩

/-- Posters 1 and 2 post the messages 1 and 2 once each; the worker takes both before poster 2 reads
`msg->next`, which has changed, so poster 2 goes on. -/
def twice : List (Option Nat × Op) :=
  [(some 1, .post 1)] ++ go (some 1) 4 ++ [(some 2, .post 2)] ++ go (some 2) 2 ++
  [(none, .pump)] ++ go none 12 ++ go (some 2) 5 ++ [(none, .pump)] ++ go none 4 ++ [(none, .pump)] ++ go none 9

/-- C42 is violated if the right operand of `!=` is read after the exchange: message 2 was posted by
one call and is run twice. -/
theorem c42_violated : twice.count (some 2, .post 2) = 1 ∧ ∃ s, Reach true id s ∧ runs s.log = [1, 2, 2] :=
  ⟨by decide +kernel, exec_some (l := twice) (f := fun s => runs s.log) (by decide +kernel)⟩

/-- C78 is violated: poster 1 has put its message into the queue and the worker has run it, but it is
not counted yet; `length()` is -1, `isRunning()` then says no although message 2 is in the queue. -/
theorem c78_violated : ∃ s, Reach false id s ∧ (s.queueLen, replay [] s.log) = (-1, some [2]) :=
  exec_some (l := [(some 1, .post 1)] ++ go (some 1) 2 ++ [(none, .pump)] ++ go none 11 ++ [(some 2, .post 2)] ++ go (some 2) 2)
    (f := fun s => (s.queueLen, replay [] s.log)) (by decide +kernel)

/-- Three posters, a priority message and a cancellation. -/
example : ∃ s, Reach false id s ∧ s.log = [.post 1 1, .post 2 2, .post 3 3, .run 1, .prio 1 1, .rej 2, .run 1, .run 3, .none] := by
  refine exec_some (l := [(some 1, .post 1)] ++ go (some 1) 3 ++ [(some 2, .post 2)] ++ go (some 2) 3 ++
    [(some 3, .post 3)] ++ go (some 3) 3 ++ [(none, .pump)] ++ go none 12 ++ [(some 0, .give 1 1), (some 1, .prio 1)] ++ go (some 1) 3 ++
    [(none, .cancel 2)] ++ go none 11 ++ [(none, .pump)] ++ go none 5 ++ [(none, .pump)] ++ go none 5 ++ [(none, .pump)] ++ go none 6)
    (f := fun s => s.log) ?_
  decide +kernel

end LS.MsgQueue

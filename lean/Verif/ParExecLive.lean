import Verif.ParExecProps
/-
C45: no action is left behind with all workers asleep.
-/
namespace LS.ParExec
open LS.FastLock (upd upd_same upd_ne)

/-- Reachable with the default idle timeout (infinite), a fixed limit, and without stopping. -/
inductive ReachS (inf : Bool) (m : Nat) : St → Prop where
  | init : ReachS inf m { maxThreads := m }
  | step {s s' : St} : ReachS inf m s → Tr inf s s' → (∀ i, s'.w i ≠ .dec) → s'.orderStop = false → ReachS inf m s'

/-- The worker is asleep and has not been notified. -/
def Asleep (s : St) (i : Nat) : Prop := s.w i = .wait ∧ i ∈ s.slots

/-- The worker runs, or has been notified: it will look for an action by itself. -/
def Active (s : St) (i : Nat) : Prop := alive (s.w i) ∧ ¬ Asleep s i

/-- Where a worker is in these histories. -/
structure Base (m : Nat) (s : St) : Prop where
  stop : s.orderStop = false
  max : s.maxThreads = m
  imm : ∀ i, s.w i ≠ .dead ∧ s.w i ≠ .dec ∧ s.w i ≠ .take3 ∧ (∀ a, s.w i ≠ .inc a) ∧ s.w i ≠ .chk false ∧ ∀ p, s.w i ≠ .cas false p
  low : ∀ i k p, s.w i = .cas k p → p ≤ m
  le : s.count + uncounted s.c ≤ m
  slot : ∀ i, i ∈ s.slots → s.w i = .take2 ∨ s.w i = .wait ∨ ∃ a, s.w i = .unreg a
  nodup : s.slots.Nodup
  ct : ∀ n u, s.c = .loop n true u → s.curAction = some n → ∀ i, s.w i = .wait → i ∉ s.slots

set_option maxHeartbeats 4000000 in
theorem base_step {inf : Bool} {m : Nat} {s s' : St} (hb : Base m s) (h : Tr inf s s') (hd : ∀ i, s'.w i ≠ .dec) (ho : s'.orderStop = false) : Base m s' := by
  obtain ⟨b1, b2, b3, b4, b5, b6, b7, b8⟩ := hb
  cases h with
  | take1 | take2 | take3 | expire =>
    cases hc : s.curAction <;> constructor <;> (try simp only [St.go, St.take, hc] at hd ho ⊢) <;> first | assumption | grind (splits := 20) [upd, Asleep, uncounted]
  | timeout i h hn => exact absurd (upd_same ..) (hd i)
  | e4 n h =>
    cases hs : s.slots with
    | nil => constructor <;> simp only [hs] <;> first | assumption | grind (splits := 20) [upd, Asleep, uncounted]
    | cons a l => constructor <;> simp only [hs] <;> first | assumption | grind (splits := 20) [upd, Asleep, uncounted]
  | _ => constructor <;> (try simp only [St.go] at hd ho ⊢) <;> first | assumption | grind (splits := 20) [upd, Asleep, uncounted]

/-- The part with witnesses. -/
structure Live (s : St) : Prop where
  any : 0 < s.count + uncounted s.c → ∃ i, s.w i ≠ .off
  go : ∀ n u, s.c = .loop n false u ∨ s.c = .started n u → s.curAction = some n → ∃ i, Active s i

theorem live_upd {s s' : St} {i : Nat} {p : W} (hl : Live s) (hw : s'.w = upd s.w i p) (hc : s'.c = s.c) (hn : s'.count = s.count) (ha : s'.curAction = s.curAction ∨ s'.curAction = none)
    (hs : ∀ j, j ≠ i → j ∈ s'.slots → j ∈ s.slots) (hp : p ≠ .off ∧ p ≠ .dead) (hp' : s'.curAction ≠ none → p = .wait → i ∉ s'.slots) : Live s' := by
  obtain ⟨l1, l2⟩ := hl
  refine ⟨fun _ => ⟨i, by rw [hw, upd_same]; exact hp.1⟩, ?_⟩
  intro n u h1 h2
  rw [hc] at h1
  rcases ha with ha | ha
  · obtain ⟨k, hk, hk'⟩ := l2 n u h1 (ha ▸ h2)
    refine ⟨k, ?_⟩
    by_cases e : k = i
    · subst e
      refine ⟨by unfold alive; rw [hw, upd_same]; exact hp, ?_⟩
      rintro ⟨a1, a2⟩
      rw [hw, upd_same] at a1
      exact hp' (by rw [h2]; simp) a1 a2
    · refine ⟨by rw [hw, upd_ne _ _ e]; exact hk, ?_⟩
      rintro ⟨a1, a2⟩
      rw [hw, upd_ne _ _ e] at a1
      exact hk' ⟨a1, hs k e a2⟩
  · rw [ha] at h2; cases h2

theorem live_take {s : St} {i : Nat} {p : Nat → W} {q : W} (hl : Live s) (hp : ∀ a, p a ≠ .off ∧ p a ≠ .dead) (hq : q ≠ .off ∧ q ≠ .dead) : Live (s.take i p q) := by
  unfold St.take
  cases hc : s.curAction with
  | none => exact live_upd (s' := s.go i q) hl rfl rfl rfl (.inl rfl) (fun _ _ h => h) hq (fun h => absurd hc h)
  | some a => exact live_upd (p := p a) hl rfl rfl rfl (.inr rfl) (fun _ _ h => h) (hp a) (fun h => absurd rfl h)

theorem live_c {s s' : St} (hl : Live s) (hw : s'.w = s.w) (h3 : s'.count + uncounted s'.c = s.count + uncounted s.c)
    (hg : ∀ n u, s'.c = .loop n false u ∨ s'.c = .started n u → s'.curAction = some n → ∃ i, Active s' i) : Live s' :=
  ⟨fun h => by rw [hw]; exact hl.any (h3 ▸ h), hg⟩

theorem live_step {inf : Bool} {m : Nat} (hm : 0 < m) {s s' : St} (hb : Base m s) (hl : Live s) (h : Tr inf s s') (hd : ∀ i, s'.w i ≠ .dec) (ho : s'.orderStop = false) : Live s' := by
  cases h with
  | top i h => exact live_upd hl rfl rfl rfl (.inl rfl) (fun _ _ h => h) (by rw [hb.stop]; simp) (by rw [hb.stop]; simp)
  | take1 i h => exact live_take hl (by simp) (by simp)
  | reg i h => exact live_upd hl rfl rfl rfl (.inl rfl) (fun j e h => (List.mem_cons.1 h).resolve_left e) (by simp) (by simp)
  | take2 i h => exact live_take hl (by simp) (by simp)
  | unreg i a h => exact live_upd hl rfl rfl rfl (.inl rfl) (fun j e h => (List.mem_filter.1 h).1) (by simp) (by simp)
  | woken i h _ => exact live_upd hl rfl rfl rfl (.inl rfl) (fun _ _ h => h) (by simp) (by simp)
  | timeout i h _ => exact absurd (upd_same ..) (hd i)
  | dec i h => exact absurd h (hb.imm i).2.1
  | take3 i h => exact absurd h (hb.imm i).2.2.1
  | inc i a h => exact absurd h ((hb.imm i).2.2.2.1 a)
  | notify i a n h _ => exact live_upd hl rfl rfl rfl (.inl rfl) (fun _ _ h => h) (by simp) (by simp)
  | exec i a h => exact live_upd hl rfl rfl rfl (.inl rfl) (fun _ _ h => h) (by simp) (by simp)
  | chk i k h => exact live_upd hl rfl rfl rfl (.inl rfl) (fun _ _ h => h) (by simp) (by simp)
  | cas i p k h hp =>
    have := hb.low i k p h
    have := hb.max
    omega
  | stay i p k h _ =>
    cases k with
    | true => exact live_upd (s' := s.go i .top) hl rfl rfl rfl (.inl rfl) (fun _ _ h => h) (by simp) (by simp)
    | false => exact absurd h ((hb.imm i).2.2.2.2.2 p)
  | start n i ct u h hm hi hr =>
    refine ⟨fun _ => ⟨i, by simp [upd_same]⟩, fun _ _ _ _ => ⟨i, ⟨by simp [alive, upd_same], ?_⟩⟩⟩
    rintro ⟨a1, -⟩
    simp [upd_same] at a1
  | spawn i h hm hi => exact ⟨fun _ => ⟨i, by simp [upd_same]⟩, by simp⟩
  | started n u h =>
    refine live_c hl rfl (by rw [h]; rfl) ?_
    intro n' u' h1 h2
    simp at h1
    obtain ⟨h1, -⟩ := h1
    subst h1
    exact hl.go n u (.inr h) h2
  | spawned h => exact live_c hl rfl (by rw [h]; rfl) (by simp)
  | nostart n ct u h hm' hr =>
    refine live_c hl rfl (by rw [h]; rfl) ?_
    intro n' u' h1 h2
    simp at h1
    obtain ⟨h1, -⟩ := h1
    subst h1
    cases ct with
    | false => exact hl.go n u (.inl h) h2
    | true =>
      have := hb.max
      obtain ⟨i, hi⟩ := hl.any (by omega)
      exact ⟨i, ⟨hi, (hb.imm i).1⟩, fun ha => hb.ct n u h h2 i ha.1 ha.2⟩
  | e4 n h =>
    refine live_c hl rfl (by rw [h]; rfl) ?_
    intro n' u' h1 h2
    cases hs : s.slots with
    | nil => rw [hs] at h1; simp at h1
    | cons a l =>
      refine ⟨a, ?_, ?_⟩
      · have := hb.slot a (by rw [hs]; simp)
        unfold alive
        grind
      · rintro ⟨-, a2⟩
        have hd := hb.nodup
        rw [hs] at hd
        simp only [hs, List.tail_cons] at a2
        exact (List.nodup_cons.1 hd).1 a2
  | expire n h hf =>
    cases hc : s.curAction with
    | none => exact live_c (s' := { s with c := .loop n false true, curAction := none }) hl rfl (by rw [h]; rfl) (by simp)
    | some a => exact live_c (s' := { s with curAction := none, c := .fail n }) hl rfl (by rw [h]; rfl) (by simp)
  | finish => cases ho
  | s1 h => cases ho
  | call h | e1 _ h | e2 _ h | e3 _ h | waited _ _ _ h | fail _ h | done _ h | stop h | s2 h | s3 h =>
    exact live_c hl rfl (by rw [h]; rfl) (by simp)

theorem all_of_reach {inf : Bool} {m : Nat} (hm : 0 < m) {s : St} (h : ReachS inf m s) : Base m s ∧ Live s ∧ Reach inf m s := by
  induction h with
  | init =>
    refine ⟨⟨rfl, rfl, by simp, by simp, Nat.zero_le _, by simp, by simp, by simp⟩, ⟨by simp [uncounted], by simp⟩, .init⟩
  | step _ t hd ho ih => exact ⟨base_step ih.1 t hd ho, live_step hm ih.1 ih.2.1 t hd ho, ih.2.2.step t⟩

/-- No lost wake-up (default idle timeout, fixed limit, no stopping): while an action waits to be taken, a worker is active, or the caller has not yet tried to notify
or to start a worker.  A worker which is active cannot fall asleep as long as the action is there (`C45_progress_partial`). -/
theorem C45_no_lost_wakeup_partial {inf : Bool} {m : Nat} (hm : 0 < m) {s : St} (h : ReachS inf m s) {n : Nat} (ha : s.curAction = some n) :
    (∃ i, Active s i) ∨ s.c = .e4 n ∨ ∃ u, s.c = .loop n true u := by
  obtain ⟨hb, hl, hr⟩ := all_of_reach hm h
  have hp := ((inv_of_reach hr).act n ha).1
  cases hc : s.c <;> rw [hc] at hp <;> simp [posted] at hp <;> subst hp
  · exact .inr (.inl rfl)
  · rename_i ct u
    cases ct with
    | true => exact .inr (.inr ⟨u, rfl⟩)
    | false => exact .inl (hl.go _ u (.inl hc) ha)
  · rename_i u
    exact .inl (hl.go _ u (.inr hc) ha)

/-- How many steps a worker is away from looking for an action, at most. -/
def rank : W → Nat
  | .take1 | .take2 => 1
  | .top | .reg => 2
  | .cas _ _ => 3
  | .chk _ => 4
  | .exec _ | .wait => 5
  | .notify _ => 6
  | .unreg _ | .inc _ => 7
  | _ => 0

set_option maxHeartbeats 4000000 in
theorem stays_active {inf : Bool} {m : Nat} {s s' : St} (hb : Base m s) (h : Tr inf s s') (hd : ∀ i, s'.w i ≠ .dec) (ho : s'.orderStop = false) {i n : Nat} (ha : Active s i)
    (hc : s.curAction = some n) : s'.curAction = none ∨ (Active s' i ∧ (s'.w i = s.w i ∨ rank (s'.w i) < rank (s.w i))) := by
  obtain ⟨b1, b2, b3, b4, b5, b6, b7, b8⟩ := hb
  have b3 := b3 i
  have b4 := b4 i
  obtain ⟨⟨a1, a2⟩, a3⟩ := ha
  have a3 : ¬ (s.w i = .wait ∧ i ∈ s.slots) := a3
  unfold Active alive Asleep
  cases h with
  | timeout j h hn => exact absurd (upd_same ..) (hd j)
  | e4 k h =>
    cases hs : s.slots with
    | nil => grind [rank]
    | cons a l => grind [rank]
  | _ => (try simp only [St.go, St.take, hc] at hd ho ⊢) <;> grind (splits := 20) [upd, rank]

/-- A worker which is active stays so as long as the action is there, and each of its own steps brings it nearer to looking for it: after at most seven of them
(one of which may be running another action) the action is taken. -/
theorem C45_progress_partial {inf : Bool} {m : Nat} (hm : 0 < m) {s s' : St} (hr : ReachS inf m s) (h : Tr inf s s') (hd : ∀ i, s'.w i ≠ .dec) (ho : s'.orderStop = false)
    {i n : Nat} (ha : Active s i) (hc : s.curAction = some n) :
    s'.curAction = none ∨ (Active s' i ∧ (s'.w i = s.w i ∨ rank (s'.w i) < rank (s.w i))) := stays_active (all_of_reach hm hr).1 h hd ho ha hc

/-- An active worker can always do a step of its own. -/
theorem C45_enabled_partial {inf : Bool} {m : Nat} (hm : 0 < m) {s : St} (hr : ReachS inf m s) {i : Nat} (ha : Active s i) : ∃ s', Tr inf s s' ∧ s'.w i ≠ s.w i := by
  obtain ⟨hb, hl, hR⟩ := all_of_reach hm hr
  obtain ⟨⟨a1, a2⟩, a3⟩ := ha
  have hi := hb.imm i
  cases hw : s.w i with
  | off => exact absurd hw a1
  | dead => exact absurd hw a2
  | top => exact ⟨_, .top s i hw, by rw [hb.stop]; simp [St.go, upd_same]⟩
  | take1 => exact ⟨_, .take1 s i hw, by unfold St.take; split <;> simp [St.go, upd_same]⟩
  | reg => exact ⟨_, .reg s i hw, by simp [upd_same]⟩
  | take2 => exact ⟨_, .take2 s i hw, by unfold St.take; split <;> simp [St.go, upd_same]⟩
  | unreg a => exact ⟨_, .unreg s i a hw, by simp [upd_same]⟩
  | wait => exact ⟨_, .woken s i hw (fun h => a3 ⟨hw, h⟩), by simp [St.go, upd_same]⟩
  | dec => exact absurd hw hi.2.1
  | take3 => exact absurd hw hi.2.2.1
  | inc a => exact absurd hw (hi.2.2.2.1 a)
  | notify a => exact ⟨_, .notify s i a a hw (C45_handover hR (by rw [hw]; rfl)).1, by simp [upd_same]⟩
  | exec a => exact ⟨_, .exec s i a hw, by simp [upd_same]⟩
  | chk k => exact ⟨_, .chk s i k hw, by simp [St.go, upd_same]⟩
  | cas k p =>
    refine ⟨_, .stay s i p k hw ?_, ?_⟩
    · have := hb.low i k p hw
      have := hb.max
      omega
    · cases k <;> simp [St.go, upd_same]

/-- A state with an action waiting, worker 0 asleep and notified, worker 1 busy. -/
example : ∃ s, ReachS true 2 s ∧ s.curAction = some 1 ∧ Active s 0 ∧ s.w 0 = .wait ∧ s.w 1 = .exec 0 := by
  have h : ReachS true 2 { maxThreads := 2 } := .init
  have h := h.step (.spawn _ 0 rfl (by decide) rfl) (by intro i; by_cases e : i = 0 <;> simp [upd, e]) rfl
  have h := h.step (.spawned _ rfl) (by intro i; by_cases e : i = 0 <;> simp [upd, e]) rfl
  have h := h.step (.spawn _ 1 rfl (by decide) rfl) (by intro i; by_cases e : i = 1 <;> by_cases e' : i = 0 <;> simp [upd, e, e']) rfl
  have h := h.step (.spawned _ rfl) (by intro i; by_cases e : i = 1 <;> by_cases e' : i = 0 <;> simp [upd, e, e']) rfl
  have h := h.step (.top _ 0 rfl) (by intro i; by_cases e : i = 1 <;> by_cases e' : i = 0 <;> simp [St.go, upd, e, e']) rfl
  have h := h.step (.take1 _ 0 rfl) (by intro i; by_cases e : i = 1 <;> by_cases e' : i = 0 <;> simp [St.take, St.go, upd, e, e']) rfl
  have h := h.step (.reg _ 0 rfl) (by intro i; by_cases e : i = 1 <;> by_cases e' : i = 0 <;> simp [St.take, St.go, upd, e, e']) rfl
  have h := h.step (.take2 _ 0 rfl) (by intro i; by_cases e : i = 1 <;> by_cases e' : i = 0 <;> simp [St.take, St.go, upd, e, e']) rfl
  have h := h.step (.call _ rfl) (by intro i; by_cases e : i = 1 <;> by_cases e' : i = 0 <;> simp [St.take, St.go, upd, e, e']) rfl
  have h := h.step (.e1 _ 0 rfl) (by intro i; by_cases e : i = 1 <;> by_cases e' : i = 0 <;> simp [St.take, St.go, upd, e, e']) rfl
  have h := h.step (.e2 _ 0 rfl) (by intro i; by_cases e : i = 1 <;> by_cases e' : i = 0 <;> simp [St.take, St.go, upd, e, e']) rfl
  have h := h.step (.e3 _ 0 rfl) (by intro i; by_cases e : i = 1 <;> by_cases e' : i = 0 <;> simp [St.take, St.go, upd, e, e']) rfl
  have h := h.step (.top _ 1 rfl) (by intro i; by_cases e : i = 1 <;> by_cases e' : i = 0 <;> simp [St.take, St.go, upd, e, e']) rfl
  have h := h.step (.take1 _ 1 rfl) (by intro i; by_cases e : i = 1 <;> by_cases e' : i = 0 <;> simp [St.take, St.go, upd, e, e']) rfl
  have h := h.step (.notify _ 1 0 0 rfl rfl) (by intro i; by_cases e : i = 1 <;> by_cases e' : i = 0 <;> simp [St.take, St.go, upd, e, e']) rfl
  have h := h.step (.e4 _ 0 rfl) (by intro i; by_cases e : i = 1 <;> by_cases e' : i = 0 <;> simp [St.take, St.go, upd, e, e']) rfl
  have h := h.step (.waited _ 0 false false rfl rfl) (by intro i; by_cases e : i = 1 <;> by_cases e' : i = 0 <;> simp [St.take, St.go, upd, e, e']) rfl
  have h := h.step (.done _ 0 rfl) (by intro i; by_cases e : i = 1 <;> by_cases e' : i = 0 <;> simp [St.take, St.go, upd, e, e']) rfl
  have h := h.step (.call _ rfl) (by intro i; by_cases e : i = 1 <;> by_cases e' : i = 0 <;> simp [St.take, St.go, upd, e, e']) rfl
  have h := h.step (.e1 _ 1 rfl) (by intro i; by_cases e : i = 1 <;> by_cases e' : i = 0 <;> simp [St.take, St.go, upd, e, e']) rfl
  have h := h.step (.e2 _ 1 rfl) (by intro i; by_cases e : i = 1 <;> by_cases e' : i = 0 <;> simp [St.take, St.go, upd, e, e']) rfl
  have h := h.step (.e3 _ 1 rfl) (by intro i; by_cases e : i = 1 <;> by_cases e' : i = 0 <;> simp [St.take, St.go, upd, e, e']) rfl
  refine ⟨_, h, rfl, ⟨⟨by decide, by decide⟩, ?_⟩, rfl, rfl⟩
  rintro ⟨-, a2⟩
  revert a2
  decide

end LS.ParExec

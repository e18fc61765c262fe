import Verif.LockPair
/-!
# Properties of `LockPair` (C127)
-/

namespace LS.LockPair

/-! ## Who owns what -/

/-- What a thread has locked, by its place. -/
def owns : PC → List Nat
  | .idle => []
  | .first _ _ _ _ => []
  | .second _ sw p q => [fst sw p q]
  | .back _ sw p q => [fst sw p q]
  | .give l => [l]
  | .try1 _ _ => []
  | .try2 p _ => [p]
  | .held p q => [p, q]
  | .half q => [q]
  | .one _ => []
  | .heldOne l => [l]

/-- The invariant: owners are those who think so; the two locks of a pair that is held differ. -/
structure Inv (s : St) : Prop where
  own : ∀ t l, s.owner l = some t ↔ l ∈ owns (s.pc t)
  ne : ∀ t p q, s.pc t = .held p q → p ≠ q

theorem inv_go {s : St} (h : Inv s) (t : Nat) (c : PC) (ho : owns c = owns (s.pc t)) (hn : ∀ p q, c = .held p q → p ≠ q) : Inv (s.go t c) := by
  constructor
  · intro u l
    show s.owner l = some u ↔ l ∈ owns (if u = t then c else s.pc u)
    rw [h.own u l]
    by_cases hu : u = t
    · rw [if_pos hu, ho, hu]
    · rw [if_neg hu]
  · intro u p q
    show (if u = t then c else s.pc u) = .held p q → _
    by_cases hu : u = t
    · rw [if_pos hu]
      exact hn p q
    · rw [if_neg hu]
      exact h.ne u p q

theorem inv_acq {s : St} (h : Inv s) (t : Nat) (c : PC) (l : Nat) (hl : s.owner l = none) (ho : ∀ k, k ∈ owns c ↔ k = l ∨ k ∈ owns (s.pc t)) (hn : ∀ p q, c = .held p q → p ≠ q) :
    Inv ((s.set l (some t)).go t c) := by
  constructor
  · intro u k
    show (if k = l then some t else s.owner k) = some u ↔ k ∈ owns (if u = t then c else s.pc u)
    by_cases hu : u = t
    · subst hu
      rw [if_pos rfl, ho]
      by_cases hk : k = l
      · simp [hk]
      · rw [if_neg hk, h.own]
        simp [hk]
    · rw [if_neg hu]
      by_cases hk : k = l
      · subst hk
        rw [if_pos rfl, ← h.own, hl]
        simp [Ne.symm hu]
      · rw [if_neg hk, h.own]
  · intro u p q
    show (if u = t then c else s.pc u) = .held p q → _
    by_cases hu : u = t
    · rw [if_pos hu]
      exact hn p q
    · rw [if_neg hu]
      exact h.ne u p q

theorem inv_rel {s : St} (h : Inv s) (t : Nat) (c : PC) (l : Nat) (hl : l ∈ owns (s.pc t)) (ho : ∀ k, k ∈ owns c ↔ k ≠ l ∧ k ∈ owns (s.pc t)) (hn : ∀ p q, c = .held p q → p ≠ q) :
    Inv ((s.set l none).go t c) := by
  have hl' : s.owner l = some t := (h.own t l).mpr hl
  constructor
  · intro u k
    show (if k = l then none else s.owner k) = some u ↔ k ∈ owns (if u = t then c else s.pc u)
    by_cases hu : u = t
    · subst hu
      rw [if_pos rfl, ho]
      by_cases hk : k = l
      · simp [hk]
      · rw [if_neg hk, h.own]
        simp [hk]
    · rw [if_neg hu]
      by_cases hk : k = l
      · subst hk
        rw [if_pos rfl, ← h.own, hl']
        simp [Ne.symm hu]
      · rw [if_neg hk, h.own]
  · intro u p q
    show (if u = t then c else s.pc u) = .held p q → _
    by_cases hu : u = t
    · rw [if_pos hu]
      exact hn p q
    · rw [if_neg hu]
      exact h.ne u p q

theorem inv_step {s s' : St} {t : Nat} (h : Inv s) (st : Step t s s') : Inv s' := by
  have no : ∀ {c : PC} (_ : ∀ p q, c ≠ .held p q), ∀ p q, c = .held p q → p ≠ q := fun hc p q e => absurd e (hc p q)
  cases st with
  | lock tmo p q hp => exact inv_go h t _ (by rw [hp]; rfl) (no (by intros; simp))
  | tryLock p q hp => exact inv_go h t _ (by rw [hp]; rfl) (no (by intros; simp))
  | lockOne l hp => exact inv_go h t _ (by rw [hp]; rfl) (no (by intros; simp))
  | first tmo sw p q hp ho => exact inv_acq h t _ _ ho (by intro k; rw [hp]; simp [owns]) (no (by intros; simp))
  | firstThrow tmo sw p q hp => exact inv_go h t _ (by rw [hp]; rfl) (no (by intros; simp))
  | firstTimeout sw p q hp => exact inv_go h t _ (by rw [hp]; rfl) (no (by intros; simp))
  | secondOk tmo sw p q hp ho =>
    have hf : s.owner (fst sw p q) = some t := (h.own t _).mpr (by rw [hp]; simp [owns])
    have hne : fst sw p q ≠ snd sw p q := fun e => by rw [e, ho] at hf; cases hf
    refine inv_acq h t _ _ ho (by intro k; rw [hp]; cases sw <;> simp [owns, fst, snd, or_comm]) ?_
    intro p' q' e
    injection e with e1 e2
    subst e1 e2
    cases sw
    · exact hne
    · exact fun e => hne e.symm
  | secondNo tmo sw p q hp ho => exact inv_go h t _ (by rw [hp]; rfl) (no (by intros; simp))
  | secondThrow tmo sw p q hp => exact inv_go h t _ (by rw [hp]; rfl) (no (by intros; simp))
  | back tmo sw p q hp => exact inv_rel h t _ _ (by rw [hp]; simp [owns]) (by intro k; rw [hp]; simp [owns]) (no (by intros; simp))
  | give l hp => exact inv_rel h t _ _ (by rw [hp]; simp [owns]) (by intro k; rw [hp]; simp [owns]) (no (by intros; simp))
  | try1Ok p q hp ho => exact inv_acq h t _ _ ho (by intro k; rw [hp]; simp [owns]) (no (by intros; simp))
  | try1No p q hp ho => exact inv_go h t _ (by rw [hp]; rfl) (no (by intros; simp))
  | try1Throw p q hp => exact inv_go h t _ (by rw [hp]; rfl) (no (by intros; simp))
  | try2Ok p q hp ho =>
    have hf : s.owner p = some t := (h.own t _).mpr (by rw [hp]; simp [owns])
    have hne : p ≠ q := fun e => by rw [e, ho] at hf; cases hf
    refine inv_acq h t _ _ ho (by intro k; rw [hp]; simp [owns, or_comm]) ?_
    intro p' q' e
    injection e with e1 e2
    subst e1 e2
    exact hne
  | try2No p q hp ho => exact inv_go h t _ (by rw [hp]; rfl) (no (by intros; simp))
  | try2Throw p q hp => exact inv_go h t _ (by rw [hp]; rfl) (no (by intros; simp))
  | unlock1 p q hp =>
    have hne := h.ne t p q hp
    refine inv_rel h t _ _ (by rw [hp]; simp [owns]) ?_ (no (by intros; simp))
    intro k
    rw [hp]
    simp only [owns, List.mem_cons, List.not_mem_nil, or_false]
    constructor
    · rintro rfl
      exact ⟨Ne.symm hne, Or.inr rfl⟩
    · rintro ⟨h1, h2 | h2⟩
      · exact absurd h2 h1
      · exact h2
  | unlock2 q hp => exact inv_rel h t _ _ (by rw [hp]; simp [owns]) (by intro k; rw [hp]; simp [owns]) (no (by intros; simp))
  | oneOk l hp ho => exact inv_acq h t _ _ ho (by intro k; rw [hp]; simp [owns]) (no (by intros; simp))
  | oneDone l hp => exact inv_rel h t _ _ (by rw [hp]; simp [owns]) (by intro k; rw [hp]; simp [owns]) (no (by intros; simp))

theorem inv_reach {s : St} (h : Reach s) : Inv s := by
  induction h with
  | init => exact ⟨fun t l => ⟨fun h => (by cases h), fun h => (by cases h)⟩, fun t p q h => (by cases h)⟩
  | step t _ st ih => exact inv_step ih st

/-! ## Safety -/

/-- C127: who has locked a pair owns both locks; an idle thread (the call returned `false`, threw, or the pair was
unlocked) owns none. -/
theorem C127_both {s : St} (h : Reach s) (t : Nat) :
    (∀ p q, s.pc t = .held p q → p ≠ q ∧ s.owner p = some t ∧ s.owner q = some t) ∧ (s.pc t = .idle → ∀ l, s.owner l ≠ some t) := by
  have hi := inv_reach h
  refine ⟨fun p q hp => ⟨hi.ne t p q hp, (hi.own t p).mpr (by rw [hp]; simp [owns]), (hi.own t q).mpr (by rw [hp]; simp [owns])⟩, fun hp l ho => ?_⟩
  have := (hi.own t l).mp ho
  rw [hp] at this
  cases this

/-- C127: mutual exclusion: pairs that two threads have locked at the same time have no lock in common, and nobody else
has one of the locks. -/
theorem C127_exclusive {s : St} (h : Reach s) (t u p q p' q' : Nat) (ht : s.pc t = .held p q) (hu : s.pc u = .held p' q') (hne : t ≠ u) :
    p ≠ p' ∧ p ≠ q' ∧ q ≠ p' ∧ q ≠ q' := by
  obtain ⟨_, h1, h2⟩ := (C127_both h t).1 p q ht
  obtain ⟨_, h3, h4⟩ := (C127_both h u).1 p' q' hu
  have key : ∀ a b, s.owner a = some t → s.owner b = some u → a ≠ b := by
    rintro a b ha hb rfl
    rw [ha] at hb
    injection hb with hb
    exact hne hb
  exact ⟨key _ _ h1 h3, key _ _ h1 h4, key _ _ h2 h3, key _ _ h2 h4⟩

/-- C127: the same with a user of one lock. -/
theorem C127_exclusive_one {s : St} (h : Reach s) (t u p q l : Nat) (ht : s.pc t = .held p q) (hu : s.pc u = .heldOne l) : p ≠ l ∧ q ≠ l := by
  obtain ⟨_, h1, h2⟩ := (C127_both h t).1 p q ht
  have h3 : s.owner l = some u := ((inv_reach h).own u l).mpr (by rw [hu]; simp [owns])
  have hne : t ≠ u := fun e => by rw [e, hu] at ht; cases ht
  have key : ∀ a, s.owner a = some t → a ≠ l := by
    rintro a ha rfl
    rw [ha] at h3
    injection h3 with h3
    exact hne h3
  exact ⟨key _ h1, key _ h2⟩

/-! ## No deadlock -/

/-- The lock that a thread waits for. -/
def waits : PC → Option Nat
  | .first _ sw p q => some (fst sw p q)
  | .one l => some l
  | _ => none

/-- A thread stands: it waits for a lock that has an owner. (A lock that throws or a timeout could get it on;
they are not counted on.) -/
def Stands (s : St) (t : Nat) : Prop := ∃ l, waits (s.pc t) = some l ∧ s.owner l ≠ none

/-- C127: a thread that waits owns nothing, so nobody waits for it. -/
theorem C127_waiting {s : St} (h : Reach s) (t l : Nat) (hw : waits (s.pc t) = some l) : ∀ k, s.owner k ≠ some t := by
  intro k hk
  have := ((inv_reach h).own t k).mp hk
  cases hp : s.pc t <;> rw [hp] at hw this <;> simp [waits, owns] at hw this

/-- C127: no deadlock: the owner of a lock that somebody waits for can go on, and does so without waiting
for others. -/
theorem C127_no_deadlock {s : St} (h : Reach s) (t : Nat) (hs : Stands s t) : ∃ u l, waits (s.pc t) = some l ∧ s.owner l = some u ∧ waits (s.pc u) = none ∧ s.pc u ≠ .idle ∧ ∃ s', Step u s s' := by
  obtain ⟨l, hw, ho⟩ := hs
  cases hl : s.owner l with
  | none => exact absurd hl ho
  | some u =>
    have hm := ((inv_reach h).own u l).mp hl
    refine ⟨u, l, hw, hl, ?_⟩
    cases hp : s.pc u with
    | idle => rw [hp] at hm; cases hm
    | first tmo sw p q => rw [hp] at hm; cases hm
    | second tmo sw p q =>
      refine ⟨rfl, by simp, ?_⟩
      cases hq : s.owner (snd sw p q) with
      | none => exact ⟨_, .secondOk s tmo sw p q hp hq⟩
      | some v => exact ⟨_, .secondNo s tmo sw p q hp (by rw [hq]; simp)⟩
    | back tmo sw p q => exact ⟨rfl, by simp, _, .back s tmo sw p q hp⟩
    | give l => exact ⟨rfl, by simp, _, .give s l hp⟩
    | try1 p q => rw [hp] at hm; cases hm
    | try2 p q =>
      refine ⟨rfl, by simp, ?_⟩
      cases hq : s.owner q with
      | none => exact ⟨_, .try2Ok s p q hp hq⟩
      | some v => exact ⟨_, .try2No s p q hp (by rw [hq]; simp)⟩
    | held p q => exact ⟨rfl, by simp, _, .unlock1 s p q hp⟩
    | half q => exact ⟨rfl, by simp, _, .unlock2 s q hp⟩
    | one l => rw [hp] at hm; cases hm
    | heldOne l => exact ⟨rfl, by simp, _, .oneDone s l hp⟩

/-- C127: a pair made of one lock twice is never acquired. -/
theorem C127_same {s : St} (h : Reach s) (t p : Nat) : s.pc t ≠ .held p p := fun hp => ((C127_both h t).1 p p hp).1 rfl

/-- C127: alone, with free locks, `lock` gets both. -/
theorem C127_alone (s : St) (t p q : Nat) (hpq : p ≠ q) (hp : s.owner p = none) (hq : s.owner q = none) (tmo : Bool) (ht : s.pc t = .first tmo false p q) :
    ∃ s1 s2, Step t s s1 ∧ Step t s1 s2 ∧ s2.pc t = .held p q ∧ s2.owner p = some t ∧ s2.owner q = some t := by
  refine ⟨_, _, .first s tmo false p q ht hp, .secondOk _ tmo false p q (by simp [St.go]) ?_, by simp [St.go], ?_, ?_⟩
  · show (if q = p then _ else _) = none
    rw [if_neg (Ne.symm hpq)]
    exact hq
  · show (if p = q then _ else if p = p then _ else _) = _
    rw [if_neg hpq, if_pos rfl]
  · show (if q = q then _ else _) = _
    rw [if_pos rfl]

/-! ## Threads may disturb each other forever -/

/-- Places of the two threads in round `i` of a period of 12 steps: thread 0 locks the pair (0, 1), thread 1 locks (1, 0). -/
def place0 : Nat → PC
  | 0 => .first false false 0 1
  | 1 => .second false false 0 1
  | 2 => .second false false 0 1
  | 3 => .back false false 0 1
  | 4 => .back false false 0 1
  | 5 => .first false true 0 1
  | 6 => .first false true 0 1
  | 7 => .second false true 0 1
  | 8 => .second false true 0 1
  | 9 => .back false true 0 1
  | 10 => .back false true 0 1
  | _ => .first false false 0 1

def place1 : Nat → PC
  | 0 => .first false false 1 0
  | 1 => .first false false 1 0
  | 2 => .second false false 1 0
  | 3 => .second false false 1 0
  | 4 => .back false false 1 0
  | 5 => .back false false 1 0
  | 6 => .first false true 1 0
  | 7 => .first false true 1 0
  | 8 => .second false true 1 0
  | 9 => .second false true 1 0
  | 10 => .back false true 1 0
  | _ => .back false true 1 0

/-- Owners of lock 0 and lock 1. -/
def own0 : Nat → Option Nat
  | 1 | 2 | 3 | 4 => some 0
  | 8 | 9 | 10 | 11 => some 1
  | _ => none

def own1 : Nat → Option Nat
  | 2 | 3 | 4 | 5 => some 1
  | 7 | 8 | 9 | 10 => some 0
  | _ => none

/-- The state after step `i`. -/
def loopSt (i : Nat) : St :=
  { owner := fun l => if l = 0 then own0 (i % 12) else if l = 1 then own1 (i % 12) else none
    pc := fun t => if t = 0 then place0 (i % 12) else if t = 1 then place1 (i % 12) else .idle }

theorem st_ext {s s' : St} (h1 : ∀ l, s.owner l = s'.owner l) (h2 : ∀ t, s.pc t = s'.pc t) : s = s' := by
  cases s
  cases s'
  congr
  · exact funext h1
  · exact funext h2

set_option maxHeartbeats 2000000 in
/-- C127 fails: two threads that lock the same two locks, named in a different order, may run forever in turn, without any of
them getting both. -/
theorem C127_livelock_violated : ∃ run : Nat → St, Reach (run 0) ∧ (∀ i, Step (i % 2) (run i) (run (i + 1))) ∧ ∀ i t p q, (run i).pc t ≠ .held p q := by
  refine ⟨loopSt, ?_, ?_, ?_⟩
  · have h1 : Reach (init.go 0 (.first false false 0 1)) := .step 0 .init (.lock init false 0 1 rfl)
    have h2 : Reach ((init.go 0 (.first false false 0 1)).go 1 (.first false false 1 0)) := .step 1 h1 (.lock _ false 1 0 rfl)
    have e : (init.go 0 (.first false false 0 1)).go 1 (.first false false 1 0) = loopSt 0 := by
      apply st_ext
      · intro l
        show none = if l = 0 then none else if l = 1 then none else none
        split
        · rfl
        · split <;> rfl
      · intro t
        show (if t = 1 then _ else if t = 0 then _ else PC.idle) = if t = 0 then _ else if t = 1 then _ else _
        by_cases h0 : t = 0
        · subst h0; rfl
        · by_cases h1 : t = 1
          · subst h1; rfl
          · simp [h0, h1]
    rw [← e]
    exact h2
  · intro i
    have key : ∀ k, k < 12 → i % 12 = k → (i + 1) % 12 = (k + 1) % 12 ∧ i % 2 = k % 2 := by
      intro k _ h
      omega
    have hk : i % 12 < 12 := Nat.mod_lt _ (by omega)
    have ow : ∀ (i : Nat), (loopSt i).owner = fun l => if l = 0 then own0 (i % 12) else if l = 1 then own1 (i % 12) else none := fun _ => rfl
    have pcs : ∀ (i : Nat), (loopSt i).pc = fun t => if t = 0 then place0 (i % 12) else if t = 1 then place1 (i % 12) else .idle := fun _ => rfl
    have acq : ∀ (c : PC) (t l : Nat), (loopSt i).owner l = none → (∀ k, (loopSt (i + 1)).owner k = if k = l then some t else (loopSt i).owner k) →
        (∀ u, (loopSt (i + 1)).pc u = if u = t then c else (loopSt i).pc u) → ((loopSt i).set l (some t)).go t c = loopSt (i + 1) := by
      intro c t l _ h1 h2
      exact st_ext (fun k => (h1 k).symm) (fun u => (h2 u).symm)
    have rel : ∀ (c : PC) (t l : Nat), (∀ k, (loopSt (i + 1)).owner k = if k = l then none else (loopSt i).owner k) →
        (∀ u, (loopSt (i + 1)).pc u = if u = t then c else (loopSt i).pc u) → ((loopSt i).set l none).go t c = loopSt (i + 1) := by
      intro c t l h1 h2
      exact st_ext (fun k => (h1 k).symm) (fun u => (h2 u).symm)
    have stay : ∀ (c : PC) (t : Nat), (∀ k, (loopSt (i + 1)).owner k = (loopSt i).owner k) →
        (∀ u, (loopSt (i + 1)).pc u = if u = t then c else (loopSt i).pc u) → (loopSt i).go t c = loopSt (i + 1) := by
      intro c t h1 h2
      exact st_ext (fun k => (h1 k).symm) (fun u => (h2 u).symm)
    have cs : i % 12 = 0 ∨ i % 12 = 1 ∨ i % 12 = 2 ∨ i % 12 = 3 ∨ i % 12 = 4 ∨ i % 12 = 5 ∨ i % 12 = 6 ∨ i % 12 = 7 ∨ i % 12 = 8 ∨ i % 12 = 9 ∨ i % 12 = 10 ∨ i % 12 = 11 := by omega
    rcases cs with h | h | h | h | h | h | h | h | h | h | h | h <;> obtain ⟨h', h2⟩ := key _ (by omega) h <;> rw [h2]
    · rw [← acq (.second false false 0 1) 0 0 (by simp [ow, h, own0]) (by intro k; simp only [ow, h, h', own0, own1]; split <;> simp_all)
        (by intro k; simp only [pcs, h, h', place0, place1]; split <;> simp_all)]
      exact .first _ false false 0 1 (by simp [pcs, h, place0]) (by simp [fst, ow, h, own0])
    · rw [← acq (.second false false 1 0) 1 1 (by simp [ow, h, own1]) (by intro k; simp only [ow, h, h', own0, own1]; split <;> simp_all)
        (by intro k; simp only [pcs, h, h', place0, place1]; split <;> simp_all)]
      exact .first _ false false 1 0 (by simp [pcs, h, place1]) (by simp [fst, ow, h, own1])
    · rw [← stay (.back false false 0 1) 0 (by intro k; simp only [ow, h, h', own0, own1])
        (by intro k; simp only [pcs, h, h', place0, place1]; split <;> simp_all)]
      exact .secondNo _ false false 0 1 (by simp [pcs, h, place0]) (by simp [snd, ow, h, own1])
    · rw [← stay (.back false false 1 0) 1 (by intro k; simp only [ow, h, h', own0, own1])
        (by intro k; simp only [pcs, h, h', place0, place1]; split <;> simp_all)]
      exact .secondNo _ false false 1 0 (by simp [pcs, h, place1]) (by simp [snd, ow, h, own0])
    · rw [← rel (.first false true 0 1) 0 0 (by intro k; simp only [ow, h, h', own0, own1]; split <;> simp_all)
        (by intro k; simp only [pcs, h, h', place0, place1]; split <;> simp_all)]
      exact .back _ false false 0 1 (by simp [pcs, h, place0])
    · rw [← rel (.first false true 1 0) 1 1 (by intro k; simp only [ow, h, h', own0, own1]; split <;> simp_all)
        (by intro k; simp only [pcs, h, h', place0, place1]; split <;> simp_all)]
      exact .back _ false false 1 0 (by simp [pcs, h, place1])
    · rw [← acq (.second false true 0 1) 0 1 (by simp [ow, h, own1]) (by intro k; simp only [ow, h, h', own0, own1]; split <;> simp_all)
        (by intro k; simp only [pcs, h, h', place0, place1]; split <;> simp_all)]
      exact .first _ false true 0 1 (by simp [pcs, h, place0]) (by simp [fst, ow, h, own1])
    · rw [← acq (.second false true 1 0) 1 0 (by simp [ow, h, own0]) (by intro k; simp only [ow, h, h', own0, own1]; split <;> simp_all)
        (by intro k; simp only [pcs, h, h', place0, place1]; split <;> simp_all)]
      exact .first _ false true 1 0 (by simp [pcs, h, place1]) (by simp [fst, ow, h, own0])
    · rw [← stay (.back false true 0 1) 0 (by intro k; simp only [ow, h, h', own0, own1])
        (by intro k; simp only [pcs, h, h', place0, place1]; split <;> simp_all)]
      exact .secondNo _ false true 0 1 (by simp [pcs, h, place0]) (by simp [snd, ow, h, own0])
    · rw [← stay (.back false true 1 0) 1 (by intro k; simp only [ow, h, h', own0, own1])
        (by intro k; simp only [pcs, h, h', place0, place1]; split <;> simp_all)]
      exact .secondNo _ false true 1 0 (by simp [pcs, h, place1]) (by simp [snd, ow, h, own1])
    · rw [← rel (.first false false 0 1) 0 1 (by intro k; simp only [ow, h, h', own0, own1]; split <;> simp_all)
        (by intro k; simp only [pcs, h, h', place0, place1]; split <;> simp_all)]
      exact .back _ false true 0 1 (by simp [pcs, h, place0])
    · rw [← rel (.first false false 1 0) 1 0 (by intro k; simp only [ow, h, h', own0, own1]; split <;> simp_all)
        (by intro k; simp only [pcs, h, h', place0, place1]; split <;> simp_all)]
      exact .back _ false true 1 0 (by simp [pcs, h, place1])
  · intro i t p q
    show (if t = 0 then place0 (i % 12) else if t = 1 then place1 (i % 12) else .idle) ≠ _
    split
    · unfold place0
      split <;> simp
    · split
      · unfold place1
        split <;> simp
      · simp

/-- In this run both threads stand again and again behind a lock that they get: after 4 steps both locks are owned, by one thread each. -/
example : (loopSt 4).owner 0 = some 0 ∧ (loopSt 4).owner 1 = some 1 ∧ (loopSt 4).pc 0 = .back false false 0 1 ∧ (loopSt 12).pc 0 = (loopSt 0).pc 0 := ⟨rfl, rfl, rfl, rfl⟩

/-- A state where a pair is held by thread 0 and thread 1 stands, as in `C127_no_deadlock`. -/
example : ∃ s, Reach s ∧ s.pc 0 = .held 0 1 ∧ Stands s 1 := by
  have h1 : Reach (init.go 0 (.first false false 0 1)) := .step 0 .init (.lock init false 0 1 rfl)
  have h2 := Reach.step 0 h1 (.first _ false false 0 1 rfl rfl)
  have h3 := Reach.step 0 h2 (.secondOk _ false false 0 1 rfl rfl)
  have h4 := Reach.step 1 h3 (.lock _ true 1 2 rfl)
  exact ⟨_, h4, rfl, 1, rfl, by decide⟩

end LS.LockPair

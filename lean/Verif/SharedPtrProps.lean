import Verif.SharedResProps
/-
C102: `SharedPtr` deletes its object exactly when the last pointer to it goes away.
-/
namespace LS.SharedRes
open LS.FastLock (upd upd_same upd_ne Chain)

/-! ### Specification -/

/-- Living pointers and their objects (0 is NULL), the deleted objects in order, all objects ever given to a pointer, objects given back by `redirect`. -/
structure PSpec where
  live : List Nat := []
  val : Nat → Nat := fun _ => 0
  deleted : List Nat := []
  used : List Nat := []
  gone : List Nat := []

/-- `x` loses its object: deleted if no other living pointer has it. -/
def PSpec.drop (S : PSpec) (x : Nat) : List Nat :=
  if S.val x ≠ 0 ∧ ∀ y ∈ S.live, y ≠ x → S.val y ≠ S.val x then S.deleted ++ [S.val x] else S.deleted

def PSpec.step (S : PSpec) : POp → PSpec
  | .make x o => { S with live := x :: S.live, val := upd S.val x o, used := if o = 0 then S.used else o :: S.used }
  | .copy x y => { S with live := x :: S.live, val := upd S.val x (S.val y) }
  | .assign x y => if S.val x = S.val y then S else { S with val := upd S.val x (S.val y), deleted := S.drop x }
  | .redirect x o => { S with val := fun y => if S.val y = S.val x then o else S.val y, used := if o = 0 then S.used else o :: S.used, gone := S.val x :: S.gone }
  | .destroy x => { S with live := S.live.erase x, deleted := S.drop x }

/-- A pointer is made from NULL or from an object which no pointer had before; `redirect` is called on a pointer which is not NULL. -/
def PSpec.ok (S : PSpec) : POp → Bool
  | .make x o => !S.live.contains x && (o == 0 || !S.used.contains o)
  | .copy x y => !S.live.contains x && S.live.contains y
  | .assign x y => S.live.contains x && S.live.contains y
  | .redirect x o => S.live.contains x && S.val x != 0 && (o == 0 || !S.used.contains o)
  | .destroy x => S.live.contains x

def PSpec.run : PSpec → List POp → PSpec
  | S, [] => S
  | S, op :: ops => (S.step op).run ops

def PSpec.oks : PSpec → List POp → Bool
  | _, [] => true
  | S, op :: ops => S.ok op && (S.step op).oks ops

/-! ### Facts about the specification -/

structure PSpec.Good (S : PSpec) : Prop where
  nd : S.live.Nodup
  del : S.deleted.Nodup
  gnd : S.gone.Nodup
  uz : 0 ∉ S.used
  used : ∀ x ∈ S.live, S.val x ≠ 0 → S.val x ∈ S.used
  fresh : ∀ x ∈ S.live, S.val x ∉ S.deleted
  kept : ∀ x ∈ S.live, S.val x ∉ S.gone
  du : ∀ o ∈ S.deleted, o ∈ S.used
  gu : ∀ o ∈ S.gone, o ∈ S.used
  dg : ∀ o ∈ S.deleted, o ∉ S.gone
  all : ∀ o ∈ S.used, o ∈ S.deleted ∨ o ∈ S.gone ∨ ∃ x ∈ S.live, S.val x = o

theorem PSpec.Good.step {S : PSpec} (g : S.Good) {op : POp} (h : S.ok op = true) : (S.step op).Good := by
  obtain ⟨g1, g2, g3, g4, g5, g6, g7, g8, g9, g10, g11⟩ := g
  cases op with
  | make x o =>
    simp only [PSpec.ok, Bool.and_eq_true, Bool.not_eq_true', List.contains_eq_mem, decide_eq_false_iff_not, Bool.or_eq_true, beq_iff_eq] at h
    refine ⟨?_, ?_, ?_, ?_, ?_, ?_, ?_, ?_, ?_, ?_, fun o' ho' => ?_⟩ <;> simp only [PSpec.step] at *
    case refine_11 =>
      by_cases e : o' = o ∧ o ≠ 0
      · exact .inr (.inr ⟨x, .head _, by rw [upd_same, e.1]⟩)
      · rcases g11 o' (by grind) with h1 | h1 | ⟨w, h1, h2⟩
        · exact .inl h1
        · exact .inr (.inl h1)
        · exact .inr (.inr ⟨w, .tail _ h1, by rw [upd_ne _ _ (by rintro rfl; exact h.1 h1), h2]⟩)
    all_goals grind [upd]
  | copy x y =>
    simp only [PSpec.ok, Bool.and_eq_true, Bool.not_eq_true', List.contains_eq_mem, decide_eq_false_iff_not, decide_eq_true_eq] at h
    constructor <;> simp only [PSpec.step] <;> grind [upd]
  | assign x y =>
    simp only [PSpec.ok, Bool.and_eq_true, List.contains_eq_mem, decide_eq_true_eq] at h
    by_cases e : S.val x = S.val y
    · simp only [PSpec.step, e, if_true]; exact ⟨g1, g2, g3, g4, g5, g6, g7, g8, g9, g10, g11⟩
    · by_cases hd : S.val x ≠ 0 ∧ ∀ y ∈ S.live, y ≠ x → S.val y ≠ S.val x
      · have ed : S.drop x = S.deleted ++ [S.val x] := by simp only [PSpec.drop]; rw [if_pos hd]
        constructor <;> simp only [PSpec.step, e, if_false, ed] <;> grind [upd, List.nodup_append]
      · have ed : S.drop x = S.deleted := by simp only [PSpec.drop]; rw [if_neg hd]
        constructor <;> simp only [PSpec.step, e, if_false, ed] <;> grind [upd]
  | redirect x o =>
    simp only [PSpec.ok, Bool.and_eq_true, Bool.not_eq_true', List.contains_eq_mem, decide_eq_false_iff_not, decide_eq_true_eq, Bool.or_eq_true, beq_iff_eq, bne_iff_ne] at h
    constructor <;> simp only [PSpec.step] <;> grind
  | destroy x =>
    simp only [PSpec.ok, List.contains_eq_mem, decide_eq_true_eq] at h
    by_cases hd : S.val x ≠ 0 ∧ ∀ y ∈ S.live, y ≠ x → S.val y ≠ S.val x
    · have ed : S.drop x = S.deleted ++ [S.val x] := by simp only [PSpec.drop]; rw [if_pos hd]
      constructor <;> simp only [PSpec.step, ed] <;> grind [List.nodup_append, List.Nodup.mem_erase_iff, List.Nodup.erase]
    · have ed : S.drop x = S.deleted := by simp only [PSpec.drop]; rw [if_neg hd]
      constructor <;> simp only [PSpec.step, ed] <;> grind [List.Nodup.mem_erase_iff, List.Nodup.erase]

theorem PSpec.Good.run : ∀ (ops : List POp) {S : PSpec}, S.Good → S.oks ops = true → (S.run ops).Good
  | [], _, g, _ => g
  | op :: ops, S, g, h => by
    simp only [PSpec.oks, Bool.and_eq_true] at h
    exact PSpec.Good.run ops (g.step h.1) h.2

theorem PSpec.Good.init : PSpec.Good {} := by constructor <;> simp

/-! ### The program -/

structure PRep (s : PSt) (S : PSpec) : Prop where
  good : S.Good
  ring : ∃ R, Rep s.next { live := S.live, R := R } ∧ (∀ a ∈ S.live, ∀ b ∈ S.live, R a b = true → S.val a = S.val b) ∧
    ∀ a ∈ S.live, ∀ b ∈ S.live, S.val a = S.val b → S.val a ≠ 0 → R a b = true
  ptr : ∀ x ∈ S.live, s.ptr x = S.val x
  deleted : s.deleted = S.deleted

theorem PRep.shared {s : PSt} {S : PSpec} {R : Nat → Nat → Bool} (hr : Rep s.next { live := S.live, R := R }) {x : Nat} (hx : x ∈ S.live) :
    isShared s.next x = true ↔ ∃ y ∈ S.live, y ≠ x ∧ R x y = true := (hr.count hx (Nat.le_refl _)).2

/-- The destructor of `x`. -/
theorem PRep.destroy {s : PSt} {S : PSpec} (r : PRep s S) {x : Nat} (hx : x ∈ S.live) {f : Nat} (hf : S.live.length ≤ f) :
    ∃ s', s.destroy f x = some s' ∧ s'.deleted = S.drop x ∧ (∀ y, y ≠ x → s'.ptr y = s.ptr y) ∧
      ∃ R, Rep s'.next { live := S.live.erase x, R := R } ∧ (∀ a ∈ S.live, ∀ b ∈ S.live, R a b = true → S.val a = S.val b) ∧
        ∀ a ∈ S.live, ∀ b ∈ S.live, S.val a = S.val b → S.val a ≠ 0 → R a b = true := by
  obtain ⟨g, ⟨R, hr, h1, h2⟩, hp, hd⟩ := r
  obtain ⟨m', e, _, r2⟩ := hr.remove hx hf
  have hsh := PRep.shared hr hx
  by_cases hs : isShared s.next x = true
  · refine ⟨{ s with next := m', ptr := upd s.ptr x 0 }, ?_, ?_, fun y hy => upd_ne _ _ hy, R, r2, h1, h2⟩
    · simp only [PSt.destroy, hs, if_true, PSt.clear, upd_same]; simp [e]
    · obtain ⟨y, hy, hyx, hR⟩ := hsh.1 hs
      have hnd : ¬ (S.val x ≠ 0 ∧ ∀ y ∈ S.live, y ≠ x → S.val y ≠ S.val x) := fun h => h.2 y hy hyx (h1 x hx y hy hR).symm
      simp only [PSpec.drop]; rw [if_neg hnd, hd]
  · have hno : ∀ y ∈ S.live, y ≠ x → S.val x ≠ 0 → S.val y ≠ S.val x := fun y hy hyx hz he => hs (hsh.2 ⟨y, hy, hyx, h2 x hx y hy he.symm hz⟩)
    by_cases hz : S.val x = 0
    · refine ⟨{ s with next := m' }, ?_, ?_, fun y _ => rfl, R, r2, h1, h2⟩
      · simp only [PSt.destroy, hs, PSt.clear]; simp [hp x hx, hz, e]
      · simp [PSpec.drop, hz, hd]
    · refine ⟨{ s with next := m', ptr := upd s.ptr x 0, deleted := s.deleted ++ [S.val x] }, ?_, ?_, fun y hy => upd_ne _ _ hy, R, r2, h1, h2⟩
      · simp only [PSt.destroy, hs, PSt.clear]; simp [hp x hx, hz, e]
      · have hnd : S.val x ≠ 0 ∧ ∀ y ∈ S.live, y ≠ x → S.val y ≠ S.val x := ⟨hz, fun y hy hyx => hno y hy hyx hz⟩
        simp only [PSpec.drop]; rw [if_pos hnd, hd]

theorem redirLoop_ring {m : Mem} {x : Nat} : ∀ (t : List Nat) {c f : Nat} {p : Nat → Nat}, Chain m c (c :: t) x → x ∉ t → t.length < f →
    ∃ p', redirLoop m x f c p = some p' ∧ ∀ z, p' z = if z ∈ c :: t then p x else p z
  | [], c, f, p, hc, _, hf => by
    obtain ⟨f, rfl⟩ : ∃ k, f = k + 1 := ⟨f - 1, by simp at hf; omega⟩
    have : m c = x := hc.2
    refine ⟨_, by simp [redirLoop, this]; rfl, fun z => ?_⟩
    simp [upd]
  | a :: t, c, f, p, hc, hx, hf => by
    obtain ⟨f, rfl⟩ : ∃ k, f = k + 1 := ⟨f - 1, by simp at hf; omega⟩
    have e : m c = a := hc.2.1
    have hc' : Chain m a (a :: t) x := e ▸ hc.2
    have hax : a ≠ x := fun h => hx (h ▸ .head _)
    obtain ⟨p', h1, h2⟩ := redirLoop_ring t (p := upd p c (p x)) hc' (fun h => hx (.tail _ h)) (by simp at hf; omega)
    refine ⟨p', by simp [redirLoop, e, hax, h1], fun z => ?_⟩
    rw [h2 z]
    simp only [upd, List.mem_cons]
    grind

theorem PRep.step {s : PSt} {S : PSpec} (r : PRep s S) {op : POp} (h : S.ok op = true) {f : Nat} (hf : S.live.length ≤ f) :
    ∃ s', pstep f s op = some s' ∧ PRep s' (S.step op) := by
  have g' := r.good.step h
  cases op with
  | make x o =>
    simp only [PSpec.ok, Bool.and_eq_true, Bool.not_eq_true', List.contains_eq_mem, decide_eq_false_iff_not, Bool.or_eq_true, beq_iff_eq] at h
    obtain ⟨g, ⟨R, hr, h1, h2⟩, hp, hd⟩ := r
    refine ⟨_, rfl, g', ⟨_, hr.new h.1, ?_, ?_⟩, ?_, hd⟩
    · simp only [PSpec.step, Spec.iso]; grind [upd]
    · have := g.used
      simp only [PSpec.step, Spec.iso]; grind [upd]
    · simp only [PSpec.step, PSt.make]; grind [upd]
  | copy x y =>
    simp only [PSpec.ok, Bool.and_eq_true, Bool.not_eq_true', List.contains_eq_mem, decide_eq_false_iff_not, decide_eq_true_eq] at h
    obtain ⟨g, ⟨R, hr, h1, h2⟩, hp, hd⟩ := r
    have := hr.refl
    refine ⟨_, rfl, g', ⟨_, hr.insert (fun e : x = y => h.1 (e ▸ h.2)) h.2 (.inl h.1) _ (List.nodup_cons.2 ⟨h.1, g.nd⟩) (by simp [PSpec.step]) (fun e => absurd e h.1), ?_, ?_⟩, ?_, hd⟩
    · simp only [PSpec.step, Spec.to]; grind [upd]
    · simp only [PSpec.step, Spec.to]; grind [upd]
    · simp only [PSpec.step, PSt.copy]; grind [upd]
  | assign x y =>
    simp only [PSpec.ok, Bool.and_eq_true, List.contains_eq_mem, decide_eq_true_eq] at h
    by_cases exy : x = y
    · subst exy; exact ⟨s, by simp [pstep, PSt.assign], by simpa [PSpec.step] using r⟩
    by_cases ev : S.val x = S.val y
    · obtain ⟨g, ⟨R, hr, h1, h2⟩, hp, hd⟩ := r
      have e1 : s.ptr x = s.ptr y := by rw [hp x h.1, hp y h.2, ev]
      have es : S.step (.assign x y) = S := by simp [PSpec.step, ev]
      rw [es]
      have hsx := PRep.shared hr h.1
      have hsy := PRep.shared hr h.2
      by_cases sx : isShared s.next x = true
      · by_cases sy : isShared s.next y = true
        · obtain ⟨f, rfl⟩ : ∃ k, f = k + 1 := ⟨f - 1, by have := List.length_pos_of_mem h.1; omega⟩
          have : s.next x ≠ x := by simpa [isShared] using sx
          exact ⟨s, by simp [pstep, PSt.assign, exy, e1, sx, sy, joinLoop, this], g, ⟨R, hr, h1, h2⟩, hp, hd⟩
        · have hno : ∀ z ∈ S.live, z ≠ y → R y z ≠ true := fun z hz hzy e => sy (hsy.2 ⟨z, hz, hzy, e⟩)
          have hz : S.val x = 0 := by
            by_cases hz : S.val x = 0
            · exact hz
            · exact absurd (h2 y h.2 x h.1 ev.symm (ev ▸ hz)) (hno x h.1 exy)
          refine ⟨{ s with next := upd (upd s.next y (s.next x)) x y }, by simp only [pstep, PSt.assign, exy, e1, sx, sy]; simp, g, ⟨_, hr.insert (fun e => exy e.symm) h.1 (.inr fun e => hno x h.1 exy (hr.symm _ _ e)) S.live g.nd (by simp [h.2]) (fun _ => hno), ?_, ?_⟩, hp, hd⟩
          · simp only [Spec.to]; grind
          · simp only [Spec.to]; have := hr.refl; grind
      · have hno : ∀ z ∈ S.live, z ≠ x → R x z ≠ true := fun z hz hzy e => sx (hsx.2 ⟨z, hz, hzy, e⟩)
        have hz : S.val x = 0 := by
          by_cases hz : S.val x = 0
          · exact hz
          · exact absurd (h2 x h.1 y h.2 ev hz) (hno y h.2 (fun e => exy e.symm))
        refine ⟨{ s with next := upd (upd s.next x (s.next y)) y x }, by simp only [pstep, PSt.assign, exy, e1, sx]; simp, g, ⟨_, hr.insert exy h.2 (.inr fun e => hno y h.2 (fun e => exy e.symm) (hr.symm _ _ e)) S.live g.nd (by simp [h.1]) (fun _ => hno), ?_, ?_⟩, hp, hd⟩
        · simp only [Spec.to]; grind
        · simp only [Spec.to]; have := hr.refl; grind
    · have hp := r.ptr
      have nd := r.good.nd
      obtain ⟨s1, e1, hd1, hp1, R, hr, h1, h2⟩ := r.destroy h.1 hf
      have e2 : s.ptr x ≠ s.ptr y := by rw [hp x h.1, hp y h.2]; exact ev
      have hye : y ∈ S.live.erase x := nd.mem_erase_iff.2 ⟨fun e => exy e.symm, h.2⟩
      have hxe : x ∉ S.live.erase x := fun e => (nd.mem_erase_iff.1 e).1 rfl
      have hrefl := hr.refl
      have es : S.step (.assign x y) = { S with val := upd S.val x (S.val y), deleted := S.drop x } := by simp [PSpec.step, ev]
      rw [es] at g' ⊢
      refine ⟨s1.copy x y, by simp only [pstep, PSt.assign, exy, e2, e1]; simp, g', ⟨_, hr.insert exy hye (.inl hxe) S.live nd (fun z => ?_) (fun e => absurd e hxe), ?_, ?_⟩, ?_, hd1⟩
      · simp only [nd.mem_erase_iff]; grind
      · simp only [Spec.to]; grind [upd]
      · simp only [Spec.to]; grind [upd]
      · simp only [PSt.copy]; intro z hz
        by_cases hzx : z = x
        · subst hzx; rw [upd_same, upd_same, hp1 y (fun e => exy e.symm), hp y h.2]
        · rw [upd_ne _ _ hzx, upd_ne _ _ hzx, hp1 z hzx, hp z hz]
  | redirect x o =>
    simp only [PSpec.ok, Bool.and_eq_true, Bool.not_eq_true', List.contains_eq_mem, decide_eq_false_iff_not, decide_eq_true_eq, Bool.or_eq_true, beq_iff_eq, bne_iff_ne] at h
    obtain ⟨g, ⟨R, hr, h1, h2⟩, hp, hd⟩ := r
    obtain ⟨t, hc, hn, hm, hl⟩ := hr.get h.1.1
    obtain ⟨p', e, hp'⟩ := redirLoop_ring t (p := upd s.ptr x o) (f := f) hc (List.nodup_cons.1 hn).1 (by simp only at hl; omega)
    refine ⟨{ s with ptr := p' }, by simp only [pstep, PSt.redirect, e], g', ⟨R, hr, ?_, ?_⟩, ?_, hd⟩
    · simp only [PSpec.step]; grind
    · have := g.used; have := hr.symm; have := hr.trans
      simp only [PSpec.step]; grind
    · intro z hz
      simp only [PSpec.step] at hz ⊢
      rw [hp' z, upd_same]
      have hmz := hm z
      by_cases hv : S.val z = S.val x
      · rw [if_pos (hmz.2 ⟨hz, h2 x h.1.1 z hz hv.symm h.1.2⟩), if_pos hv]
      · have : z ∉ x :: t := fun hh => hv (h1 x h.1.1 z hz (hmz.1 hh).2).symm
        rw [if_neg this, if_neg hv, upd_ne _ _ (fun e => this (by simp [e])), hp z hz]
  | destroy x =>
    simp only [PSpec.ok, List.contains_eq_mem, decide_eq_true_eq] at h
    have hp := r.ptr
    have nd := r.good.nd
    obtain ⟨s1, e1, hd1, hp1, R, hr, h1, h2⟩ := r.destroy h hf
    refine ⟨s1, e1, g', ⟨R, hr, ?_, ?_⟩, ?_, hd1⟩
    · simp only [PSpec.step]; intro a ha b hb; exact h1 a (List.mem_of_mem_erase ha) b (List.mem_of_mem_erase hb)
    · simp only [PSpec.step]; intro a ha b hb; exact h2 a (List.mem_of_mem_erase ha) b (List.mem_of_mem_erase hb)
    · simp only [PSpec.step]; intro a ha
      have := nd.mem_erase_iff.1 ha
      rw [hp1 a this.1, hp a this.2]

theorem PSpec.step_length (S : PSpec) (op : POp) : (S.step op).live.length ≤ S.live.length + 1 := by
  cases op <;> simp only [PSpec.step, List.length_cons] <;> (try omega)
  · split <;> simp
  · have := List.length_erase_le (a := ‹Nat›) (l := S.live)
    omega

theorem PRep.run : ∀ (ops : List POp) {s : PSt} {S : PSpec}, PRep s S → S.oks ops = true →
    ∀ {f : Nat}, S.live.length + ops.length ≤ f → ∃ s', prun f s ops = some s' ∧ PRep s' (S.run ops)
  | [], s, _, r, _, _, _ => ⟨s, rfl, r⟩
  | op :: ops, s, S, r, hok, f, hf => by
    simp only [PSpec.oks, Bool.and_eq_true] at hok
    obtain ⟨s1, h1, r1⟩ := r.step hok.1 (f := f) (by simp at hf; omega)
    have := PSpec.step_length S op
    obtain ⟨s2, h2, r2⟩ := PRep.run ops r1 hok.2 (f := f) (by simp at hf; omega)
    exact ⟨s2, by simp only [prun, h1, h2], r2⟩

/-- **C102**: for every history of making, copying, assigning (also to itself), redirecting and destroying pointers, the pointers have the values of the specification,
and the same objects are deleted in the same order: each one when the last pointer to it goes away. -/
theorem C102_refines (ops : List POp) (h : PSpec.oks {} ops = true) (f : Nat) (hf : ops.length ≤ f) :
    ∃ s, prun f {} ops = some s ∧ s.deleted = (PSpec.run {} ops).deleted ∧ ∀ x ∈ (PSpec.run {} ops).live, s.ptr x = (PSpec.run {} ops).val x := by
  have r0 : PRep {} {} := ⟨PSpec.Good.init, ⟨fun a b => a == b, Rep.init _, by simp, by simp⟩, by simp, rfl⟩
  obtain ⟨s, h1, r⟩ := PRep.run ops r0 h (f := f) (by simpa using hf)
  exact ⟨s, h1, r.deleted, r.ptr⟩

/-- **C102**: no object is deleted twice, no living pointer has a deleted object, and an object which is neither deleted nor given back by `redirect` still has a living
pointer. -/
theorem C102_once (ops : List POp) (h : PSpec.oks {} ops = true) (f : Nat) (hf : ops.length ≤ f) :
    ∃ s, prun f {} ops = some s ∧ s.deleted.Nodup ∧ (∀ x ∈ (PSpec.run {} ops).live, s.ptr x ∉ s.deleted) ∧
      ∀ o ∈ (PSpec.run {} ops).used, o ∈ s.deleted ∨ o ∈ (PSpec.run {} ops).gone ∨ ∃ x ∈ (PSpec.run {} ops).live, s.ptr x = o := by
  obtain ⟨s, h1, h2, h3⟩ := C102_refines ops h f hf
  have g := PSpec.Good.run ops PSpec.Good.init h
  refine ⟨s, h1, h2 ▸ g.del, fun x hx => by rw [h3 x hx, h2]; exact g.fresh x hx, fun o ho => ?_⟩
  rw [h2]
  rcases g.all o ho with h | h | ⟨x, hx, h⟩
  · exact .inl h
  · exact .inr (.inl h)
  · exact .inr (.inr ⟨x, hx, by rw [h3 x hx, h]⟩)

/-- Example: two objects, copies, an assignment which drops the last pointer to object 10. -/
example : ∃ s, prun 20 {} [.make 1 10, .make 2 20, .copy 3 1, .assign 3 3, .assign 1 2, .assign 3 1, .make 4 0, .assign 4 2, .destroy 2, .destroy 1, .destroy 3, .destroy 4] = some s ∧
    s.deleted = [10, 20] ∧ PSpec.oks {} [.make 1 10, .make 2 20, .copy 3 1, .assign 3 3, .assign 1 2, .assign 3 1, .make 4 0, .assign 4 2, .destroy 2, .destroy 1, .destroy 3, .destroy 4] = true :=
  ⟨_, rfl, by decide, by decide⟩

/-- Outside the conditions: two pointers made from the same object are in different groups, and an assignment between them does not join two groups (the loop compares
the objects, not the pointers: sharedPtr.h:46-52); the object is deleted twice. -/
example : ∃ s, prun 20 {} [.make 1 10, .copy 2 1, .make 3 10, .copy 4 3, .assign 1 3, .destroy 1, .destroy 2, .destroy 3, .destroy 4] = some s ∧ s.deleted = [10, 10] :=
  ⟨_, rfl, by decide⟩
end LS.SharedRes

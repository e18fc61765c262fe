/-
C160: iterators that count. Model: `Verif/Counters.lean`.
-/
import Verif.Counters
import Verif.IterOpsProps

namespace LS.Counters

open LS.IterOps

theorem loop_split (all : Bool) (sz : Nat) : ∀ rd (s : Src),
    s = (readLoop all sz rd s).2.1.map some ++ (readLoop all sz rd s).2.2 := by
  induction sz with
  | zero => intro rd s; simp [readLoop]
  | succ sz ih =>
    intro rd s
    cases s with
    | nil => simp [readLoop]
    | cons o s =>
      cases o with
      | none => simp [readLoop, getNext]
      | some x =>
        simp only [readLoop, List.isEmpty_cons, getNext]
        exact congrArg (some x :: ·) (ih (rd + 1) s)

theorem loop_quiet (sz : Nat) : ∀ rd (s : Src), rd ≠ 0 → (readLoop false sz rd s).1 = false := by
  induction sz with
  | zero => intro rd s _; simp [readLoop]
  | succ sz ih =>
    intro rd s h
    cases s with
    | nil => simp [readLoop]
    | cons o s =>
      cases o with
      | none => simp [readLoop, getNext, h]
      | some x =>
        simp only [readLoop, List.isEmpty_cons, getNext]
        exact ih (rd + 1) s (by omega)

/-- A block of the source: what was read and what is left are the source; without `all` an exception comes only before the first
item; the result is the number of items. -/
theorem block_split (sz : Nat) (all : Bool) (s : Src) :
    s = (blockRead sz all s).2.1.map some ++ (blockRead sz all s).2.2 ∧
    (∀ n, (blockRead sz all s).1 = .ok n → n = (blockRead sz all s).2.1.length) ∧
    (all = false → (blockRead sz all s).1 = .exn → (blockRead sz all s).2.1 = []) := by
  unfold blockRead
  by_cases h0 : sz = 0
  · simp [h0]
  · simp only [h0, if_false]
    have sp := loop_split all sz 0 s
    by_cases h1 : (readLoop all sz 0 s).1 = true
    · simp only [h1, if_true]
      refine ⟨sp, by simp, ?_⟩
      intro ha _
      subst ha
      cases sz with
      | zero => simp at h0
      | succ sz =>
        cases s with
        | nil => simp [readLoop]
        | cons o s =>
          cases o with
          | none => simp [readLoop, getNext]
          | some x =>
            simp only [readLoop, List.isEmpty_cons, getNext] at h1
            have := loop_quiet sz 1 s (by omega)
            simp [this] at h1
    · simp only [h1]
      by_cases h2 : (all && (readLoop all sz 0 s).2.1.length != sz) = true
      · simp only [h2, if_true]
        refine ⟨sp, by simp, ?_⟩
        intro ha; subst ha; simp at h2
      · simp only [h2]
        refine ⟨sp, by simp, by simp⟩

/-- Calls without `all`. -/
def ROp.plain : ROp → Prop
  | .block _ all => all = false
  | _ => True

/-- What was read is what the source gave, in its order, nothing lost, with any calls. -/
theorem C160_items (l : List ROp) : ∀ c : Rd, c.src = (Rd.run l c).1.map some ++ (Rd.run l c).2.src := by
  induction l with
  | nil => intro c; simp [Rd.run]
  | cons o l ih =>
    intro c
    simp only [Rd.run, List.map_append, List.append_assoc]
    rw [← ih]
    cases o with
    | next =>
      simp only [Rd.op, Rd.next]
      cases hs : c.src with
      | nil => simp [getNext, hs]
      | cons o s => cases o <;> simp [getNext, hs]
    | peek => simp [Rd.op]
    | block sz all =>
      have h := (block_split sz all c.src).1
      simp only [Rd.op, Rd.block]
      generalize blockRead sz all c.src = r at h
      obtain ⟨a, b, s⟩ := r
      cases a <;> exact h

example : (Rd.run [.next, .peek, .block 2 false, .block 5 false] ⟨good [7, 8, 9, 4], 0⟩) = ([7, 8, 9, 4], ⟨[], 4⟩) := by decide

/-- The counter is what it was and the number of the items read, with any calls. Partial: blocks are not read with `all`. -/
theorem C160_count_partial (l : List ROp) (hl : ∀ o ∈ l, o.plain) : ∀ c : Rd, c.cnt < M →
    (Rd.run l c).2.cnt = (c.cnt + (Rd.run l c).1.length) % M := by
  induction l with
  | nil => intro c h; simp [Rd.run, Nat.mod_eq_of_lt h]
  | cons o l ih =>
    intro c h
    have hM : 0 < M := by decide
    have one : (c.op o).2.2.cnt = (c.cnt + (c.op o).2.1.length) % M := by
      cases o with
      | next =>
        simp only [Rd.op, Rd.next]
        cases hs : getNext c.src with
        | none => simp [Nat.mod_eq_of_lt h]
        | some r => simp
      | peek => simp [Rd.op, Nat.mod_eq_of_lt h]
      | block sz all =>
        have ha : all = false := hl (.block sz all) (by simp)
        have hb := block_split sz all c.src
        simp only [Rd.op, Rd.block]
        generalize blockRead sz all c.src = r at hb
        obtain ⟨a, b, s⟩ := r
        cases a with
        | ok n => have := hb.2.1 n rfl; simp only at this; simp [this]
        | exn => have := hb.2.2 ha rfl; simp only at this; simp [this, Nat.mod_eq_of_lt h]
    simp only [Rd.run, List.length_append]
    rw [ih (fun p hp => hl p (by simp [hp])) _ (by rw [one]; exact Nat.mod_lt _ hM), one]
    rw [Nat.mod_add_mod, Nat.add_assoc]

/-- Counting changes nothing of what is read: the same as the source alone. -/
theorem C160_same (c : Rd) (sz : Nat) (all : Bool) :
    (c.block sz all).1 = (blockRead sz all c.src).1 ∧ (c.block sz all).2.1 = (blockRead sz all c.src).2.1 ∧
    (c.block sz all).2.2.src = (blockRead sz all c.src).2.2 ∧ c.next.map (fun r => (r.1, r.2.src)) = getNext c.src ∧
    c.peek = LS.IterOps.peek c.src := by
  refine ⟨?_, ?_, ?_, ?_, rfl⟩
  · simp only [Rd.block]; split <;> simp_all
  · simp only [Rd.block]; split <;> simp_all
  · simp only [Rd.block]; split <;> simp_all
  · simp only [Rd.next]; split <;> simp_all

/-- A block that should be full and cannot be: the items are read, the counter does not know. -/
theorem C160_all_violated :
    (Rd.mk (good [7, 8, 9]) 0).block 5 true = (.exn, [7, 8, 9], ⟨[], 0⟩) := by decide

/-- Calls without `all`. -/
def WOp.plain : WOp → Prop
  | .block all _ => all = false
  | _ => True

/-- The items of calls. -/
def WOp.items : WOp → List Nat
  | .write x => [x]
  | .block _ b => b

theorem take_app (a b : List Nat) (r : Nat) : (a ++ b).take r = a.take r ++ b.take (r - a.length) := by
  rw [List.take_append]

/-- All items are written as long as there is room, in their order, and the counter is what it was and their number. Partial:
blocks are not written with `all`. -/
theorem C160_written_partial (l : List WOp) (hl : ∀ o ∈ l, o.plain) : ∀ c : Wr, c.cnt < M →
    (Wr.run l c).dst.out = c.dst.out ++ (l.flatMap WOp.items).take c.dst.room ∧
    (Wr.run l c).dst.room = c.dst.room - (l.flatMap WOp.items).length ∧
    (Wr.run l c).cnt = (c.cnt + min c.dst.room (l.flatMap WOp.items).length) % M := by
  induction l with
  | nil => intro c h; simp [Wr.run, Nat.mod_eq_of_lt h]
  | cons o l ih =>
    intro c h
    have hM : 0 < M := by decide
    have one : (c.op o).dst.out = c.dst.out ++ o.items.take c.dst.room ∧
        (c.op o).dst.room = c.dst.room - o.items.length ∧
        (c.op o).cnt = (c.cnt + min c.dst.room o.items.length) % M := by
      cases o with
      | write x =>
        simp only [Wr.op, Wr.write, Dst.write, WOp.items]
        by_cases hr : c.dst.room = 0
        · simp [hr, Nat.mod_eq_of_lt h]
        · have e : min c.dst.room 1 = 1 := by omega
          obtain ⟨r, hr'⟩ := Nat.exists_eq_succ_of_ne_zero hr
          simp [hr']
      | block all b =>
        have ha : all = false := hl (.block all b) (by simp)
        subst ha
        simp only [Wr.op, Wr.block, C151_write, WOp.items]
        refine ⟨by simp [Dst.after], ?_, ?_⟩
        · simp [Dst.after]; omega
        · simp [Nat.min_comm]
    obtain ⟨h1, h2, h3⟩ := one
    obtain ⟨g1, g2, g3⟩ := ih (fun p hp => hl p (by simp [hp])) (c.op o) (by rw [h3]; exact Nat.mod_lt _ hM)
    simp only [Wr.run, List.flatMap_cons]
    refine ⟨?_, ?_, ?_⟩
    · rw [g1, h1, h2, List.append_assoc, take_app]
    · rw [g2, h2, List.length_append]; omega
    · rw [g3, h3, h2, Nat.mod_add_mod, List.length_append]
      congr 1; omega

example : (Wr.run [.write 4, .block false [5, 6, 7], .write 8] ⟨⟨[], 3, fun _ => true⟩, 0⟩).cnt = 3 ∧
    (Wr.run [.write 4, .block false [5, 6, 7], .write 8] ⟨⟨[], 3, fun _ => true⟩, 0⟩).dst.out = [4, 5, 6] := by decide

/-- A block that should be written whole and has no room: what was written is not counted. This is the default of
`blockWrite`. -/
theorem C160_writeall_violated : ((Wr.mk ⟨[], 2, fun _ => true⟩ 0).block true [5, 6, 7]).1 = .exn ∧
    ((Wr.mk ⟨[], 2, fun _ => true⟩ 0).block true [5, 6, 7]).2.dst.out = [5, 6] ∧
    ((Wr.mk ⟨[], 2, fun _ => true⟩ 0).block true [5, 6, 7]).2.cnt = 0 := by decide

end LS.Counters

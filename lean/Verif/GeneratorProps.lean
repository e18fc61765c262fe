/-
C154: the iterator of a generator gives what the function writes. Model: `Verif/Generator.lean`.
-/
import Verif.Generator

namespace LS.Generator

/-- What was not read yet. -/
def rest (s : St) : List Nat := s.cur.getD [] ++ s.gen.flatten

/-- No empty blocks. -/
def Full (s : St) : Prop := ∀ b ∈ s.gen, b ≠ []

/-- A function that returned has nothing more to write, and nothing is left of it. -/
def Inv (s : St) : Prop := s.alive = false → s.cur = none ∧ s.gen = []

theorem prepare_inv (s : St) (h : Inv s) : Inv (prepareNext s).2 := by
  unfold prepareNext
  split
  · exact h
  · rcases hg : s.gen with _ | ⟨b, g⟩ <;> simp [wakeUp, Inv]

theorem prepare_sub (s : St) : (rest (prepareNext s).2).Sublist (rest s) := by
  unfold prepareNext
  split
  · exact List.Sublist.refl _
  · rcases hg : s.gen with _ | ⟨b, g⟩
    · simp [wakeUp, hg, rest]
    · simp [wakeUp, hg, rest]

theorem new_inv (g : List (List Nat)) : Inv (new g) := by
  cases g <;> simp [new, wakeUp, Inv]

/-- At first nothing is read: all that the function writes is left. -/
theorem C154_new (g : List (List Nat)) : rest (new g) = g.flatten := by
  cases g <;> simp [new, wakeUp, rest]

example : rest (new [[1, 2], [3]]) = [1, 2, 3] := by decide

theorem getNext_inv (s : St) (h : Inv s) : Inv (getNext s).2 := by
  unfold getNext
  split
  · exact h
  · have hp := prepare_inv s h
    simp only []
    split
    · exact hp
    · split
      · rename_i x t e
        intro ha
        have := hp ha
        rw [e] at this; simp at this
      · exact hp

theorem peek_inv (s : St) (h : Inv s) : Inv (peek s).2 := by
  unfold peek
  split
  · exact h
  · have hp := prepare_inv s h
    simp only []
    split
    · exact hp
    · split <;> exact hp

theorem has_inv (s : St) (h : Inv s) : Inv (hasItems s).2 := by
  unfold hasItems
  split
  · exact h
  · exact prepare_inv s h

theorem step_inv (o : Op) (s : St) (h : Inv s) : Inv (step o s).2 := by
  cases o with
  | hasItems => exact has_inv s h
  | getNext =>
    have := getNext_inv s h
    simp only [step]
    split <;> (rename_i e; rw [e] at this; exact this)
  | peek => exact peek_inv s h

theorem step_sub (o : Op) (s : St) : ((step o s).1 ++ rest (step o s).2).Sublist (rest s) := by
  have hp := prepare_sub s
  cases o with
  | hasItems =>
    simp only [step, hasItems, List.nil_append]
    split
    · exact List.Sublist.refl _
    · exact hp
  | getNext =>
    simp only [step, getNext]
    split
    · rename_i x s' e
      split at e
      · simp at e
      · split at e
        · simp at e
        · split at e
          · rename_i y t hc
            simp at e
            obtain ⟨rfl, rfl⟩ := e
            simp only [rest, hc] at hp
            simpa [rest] using hp
          · simp at e
    · rename_i s' e
      split at e
      · simp at e; subst e; simp
      · split at e
        · simp at e; subst e; simpa using hp
        · split at e
          · simp at e
          · simp at e; subst e; simpa using hp
  | peek =>
    simp only [step, peek, List.nil_append]
    split
    · exact List.Sublist.refl _
    · split
      · exact hp
      · split <;> exact hp

/-- Whatever the reader calls, it gets items the function wrote, each at most once and in order, and what is left comes after
them. Partial: not all of them. -/
theorem C154_order_partial (g : List (List Nat)) (l : List Op) :
    ((run l (new g)).1 ++ rest (run l (new g)).2).Sublist g.flatten := by
  suffices ∀ l s, Inv s → ((run l s).1 ++ rest (run l s).2).Sublist (rest s) by
    rw [← C154_new g]; exact this l _ (new_inv g)
  intro l
  induction l with
  | nil => intro s _; simp [run]
  | cons o l ih =>
    intro s h
    simp only [run, List.append_assoc]
    exact ((List.Sublist.refl _).append (ih _ (step_inv o s h))).trans (step_sub o s)

example : (run [.hasItems, .getNext, .hasItems, .getNext] (new [[1], [2], [3], [4]])).1 = [2, 4] := by decide

/-- Asking for items loses none. With no empty blocks it says truly whether there are any. -/
theorem C154_has_partial (s : St) (hi : Inv s) (hf : Full s) :
    ((hasItems s).1 = true ↔ rest s ≠ []) ∧ rest (hasItems s).2 = rest s := by
  unfold hasItems
  obtain ⟨c, g, a⟩ := s
  cases a with
  | false =>
    have := hi rfl
    simp at this
    obtain ⟨rfl, rfl⟩ := this
    simp [ready, prepareNext, rest]
  | true =>
    rcases c with _ | _ | ⟨x, t⟩
    · rcases g with _ | ⟨b, g⟩
      · simp [ready, prepareNext, wakeUp, rest]
      · have : b ≠ [] := hf b (by simp)
        simp [ready, prepareNext, wakeUp, rest, this]
    · rcases g with _ | ⟨b, g⟩
      · simp [ready, prepareNext, wakeUp, rest]
      · have : b ≠ [] := hf b (by simp)
        simp [ready, prepareNext, wakeUp, rest, this]
    · simp [ready, rest]

example : hasItems (new [[7], [8]]) = (true, new [[7], [8]]) := by decide

/-- Asking again gives the same answer and changes nothing more. -/
theorem C154_again (s : St) (hi : Inv s) (hf : Full s) : hasItems (hasItems s).2 = hasItems s := by
  obtain ⟨c, g, a⟩ := s
  cases a with
  | false =>
    have := hi rfl
    simp at this
    obtain ⟨rfl, rfl⟩ := this
    simp [hasItems, ready, prepareNext]
  | true =>
    rcases c with _ | _ | ⟨x, t⟩
    · rcases g with _ | ⟨b, g⟩
      · simp [hasItems, ready, prepareNext, wakeUp]
      · rcases b with _ | ⟨y, b⟩
        · exact absurd rfl (hf [] (by simp))
        · simp [hasItems, ready, prepareNext, wakeUp]
    · rcases g with _ | ⟨b, g⟩
      · simp [hasItems, ready, prepareNext, wakeUp]
      · rcases b with _ | ⟨y, b⟩
        · exact absurd rfl (hf [] (by simp))
        · simp [hasItems, ready, prepareNext, wakeUp]
    · simp [hasItems, ready]

/-- When the function has returned there is nothing more, for ever. -/
theorem C154_end (s : St) (hi : Inv s) (h : s.alive = false) :
    hasItems s = (false, s) ∧ getNext s = (.exn, s) ∧ peek s = (.exn, s) := by
  obtain ⟨c, g, a⟩ := s
  simp at h; subst h
  have := hi rfl
  simp at this
  obtain ⟨rfl, rfl⟩ := this
  simp [hasItems, getNext, peek, ready, prepareNext]

example : hasItems (new []) = (false, new []) := by decide

/-- Where nothing is prepared, getting or looking at an item throws and loses nothing. -/
theorem C154_kept (c : Option (List Nat)) (g : List (List Nat)) (a : Bool) (h : c = none ∨ c = some []) :
    getNext ⟨c, g, a⟩ = (.exn, ⟨c, g, a⟩) ∧ peek ⟨c, g, a⟩ = (.exn, ⟨c, g, a⟩) := by
  rcases h with rfl | rfl <;> exact ⟨rfl, rfl⟩

example : (getNext ⟨none, [[4]], true⟩).1 = .exn := by decide

/-- The second, fourth, … item. -/
def second : List Nat → List Nat
  | _ :: y :: l => y :: second l
  | _ => []

/-- The single writes of some items. -/
def singles (xs : List Nat) : List (List Nat) := xs.map fun x => [x]

theorem readAll_singles : ∀ (f : Nat) (xs : List Nat), xs.length ≤ f → ∀ c, (c = none ∨ c = some []) →
    readAll (f + 1) ⟨c, singles xs, true⟩ = (second xs, xs.length % 2 == 1) := by
  intro f
  induction f using Nat.strongRecOn with
  | _ f ih =>
    intro xs h c hc
    match xs with
    | [] => rcases hc with rfl | rfl <;> simp [readAll, hasItems, ready, prepareNext, wakeUp, singles, second]
    | [x] => rcases hc with rfl | rfl <;> simp [readAll, hasItems, getNext, ready, prepareNext, wakeUp, singles, second]
    | x :: y :: l =>
      match f, h with
      | f' + 1, h =>
        have := ih f' (by omega) l (by simp at h; omega) (some []) (.inr rfl)
        have e : hasItems ⟨c, singles (x :: y :: l), true⟩ = (true, ⟨some [x], singles (y :: l), true⟩) := by
          rcases hc with rfl | rfl <;> simp [hasItems, ready, prepareNext, wakeUp, singles]
        have e2 : getNext ⟨some [x], singles (y :: l), true⟩ = (.item y, ⟨some [], singles l, true⟩) := by
          simp [getNext, ready, prepareNext, wakeUp, singles]
        rw [readAll, e]
        simp only [e2, this, second, List.length_cons]
        congr 1
        rw [show l.length + 1 + 1 = l.length + 2 by omega, Nat.add_mod_right]

/-- The usual loop over a generator reads every second item only, and ends with an exception when their number is odd: `getNext`
wakes the function up when an item is there, too, and drops it. -/
theorem C154_half_violated (xs : List Nat) (f : Nat) (h : xs.length ≤ f) :
    readAll (f + 1) (new (singles xs)) = (second xs, xs.length % 2 == 1) := by
  match xs with
  | [] => rfl
  | x :: l =>
    have e : hasItems (new (singles (x :: l))) = hasItems ⟨none, singles (x :: l), true⟩ := by
      simp [new, hasItems, ready, prepareNext, wakeUp, singles]
    have := readAll_singles f (x :: l) h none (.inl rfl)
    rw [readAll, ← e] at this
    rw [readAll]; exact this

example : readAll 9 (new (singles [1, 2, 3, 4])) = ([2, 4], false) := by decide

/-- In general: with an item there, `getNext` drops all that is left of the block and gives the first item of the next one, or
throws when there is none. -/
theorem C154_drop_violated (x : Nat) (t : List Nat) (y : Nat) (b : List Nat) (g : List (List Nat)) :
    getNext ⟨some (x :: t), (y :: b) :: g, true⟩ = (.item y, ⟨some b, g, true⟩) ∧
    getNext ⟨some (x :: t), [], true⟩ = (.exn, ⟨none, [], false⟩) ∧
    peek ⟨some (x :: t), (y :: b) :: g, true⟩ = (.item y, ⟨some (y :: b), g, true⟩) := ⟨rfl, rfl, rfl⟩

example : getNext (new [[1, 2, 3], [4, 5]]) = (.item 4, ⟨some [5], [], true⟩) := by decide

/-- The first item the function writes is prepared by the constructor, and the first `getNext` drops it. -/
theorem C154_first_violated (x y : Nat) (t b : List Nat) (g : List (List Nat)) :
    (getNext (new ((x :: t) :: (y :: b) :: g))).1 = .item y ∧ (getNext (new [x :: t])).1 = .exn ∧
    (hasItems (new [x :: t])).1 = true := ⟨rfl, rfl, rfl⟩

example : (getNext (new [[1], [2]])).1 = .item 2 := by decide

/-- Two calls of `getNext` without asking between them: the second throws though the function would write more. -/
theorem C154_ask_violated : (getNext (getNext (new (singles [1, 2, 3, 4]))).2).1 = .exn := by decide

/-- After an empty block `hasItems` says yes and `getNext` throws. -/
theorem C154_empty_violated :
    (hasItems ⟨some [], [[], [1]], true⟩).1 = true ∧ (getNext (hasItems ⟨some [], [[], [1]], true⟩).2).1 = .exn := by decide

/-- The number `blockWrite` returns is the number of items that were not read less the length, without sign: right only when
nothing was read. -/
theorem C154_count_violated (len left : Nat) (h : left ≤ len) (hl : len < 2 ^ 63) :
    processed len left = len - left ↔ left = len := by
  unfold processed
  constructor
  · intro e
    by_cases hh : left = len
    · exact hh
    · rw [Nat.mod_eq_of_lt (by omega)] at e; omega
  · rintro rfl; simp

example : processed 3 0 = 18446744073709551613 := by decide

end LS.Generator

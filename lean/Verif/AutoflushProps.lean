/-
C153: what was written is in the output before the input is read. Model: `Verif/Autoflush.lean`.
-/
import Verif.Autoflush

namespace LS.Autoflush

/-- Operations that keep the flag: nothing is skipped in the output and the flag stays where it is. -/
def Op.usual : Op → Bool
  | .skip => false
  | .setAddr _ => false
  | _ => true

/-- What an operation writes. -/
def Op.items : Op → List Nat
  | .write x => [x]
  | .skip => [0]
  | _ => []

theorem run_none (l : List Op) : run l none = none := by cases l <;> rfl

theorem run_append (l m : List Op) : ∀ s, run (l ++ m) s = run m (run l s) := by
  induction l with
  | nil => intro s; rfl
  | cons o os ih =>
    intro s
    cases s with
    | none => simp [run, run_none]
    | some s => simp only [List.cons_append, run]; exact ih _

/-- The invariant: what is in the buffer is known to the flag. -/
def Inv (s : St) : Prop := s.dirty = .own ∧ (s.own = false → s.buf = [])

theorem step_inv (s : St) (o : Op) (h : Inv s) (ho : o.usual = true) : ∃ s', step s o = some s' ∧ Inv s' := by
  obtain ⟨h1, h2⟩ := h
  cases o with
  | write x =>
    by_cases hc : s.flushChar = some x
    · exact ⟨flushed { s with buf := s.buf ++ [x] }, by simp only [step, write, if_pos hc], by simp [Inv, flushed, h1]⟩
    · refine ⟨{ s with buf := s.buf ++ [x], own := true }, ?_, ?_⟩
      · simp only [step, write, if_neg hc, setDirty, h1]
      · simp [Inv, h1]
  | skip => simp [Op.usual] at ho
  | flush => exact ⟨_, rfl, by simp [Inv, flushed, h1]⟩
  | setChar c => exact ⟨_, rfl, h1, h2⟩
  | unsetChar => exact ⟨_, rfl, h1, h2⟩
  | connect b => exact ⟨_, rfl, h1, h2⟩
  | read =>
    cases hc : s.conn with
    | false => exact ⟨s, by simp [step, read, hc], h1, h2⟩
    | true =>
      cases hd : s.own with
      | false => exact ⟨s, by simp [step, read, hc, isDirty, h1, hd], h1, h2⟩
      | true =>
        refine ⟨{ flushed s with own := false }, ?_, ?_⟩
        · simp [step, read, hc, isDirty, h1, hd, setDirty, flushed]
        · simp [Inv, flushed, h1]
  | setAddr a => simp [Op.usual] at ho

theorem run_inv (l : List Op) : ∀ s, Inv s → (∀ o ∈ l, o.usual = true) → ∃ s', run l (some s) = some s' ∧ Inv s' := by
  induction l with
  | nil => intro s h _; exact ⟨s, rfl, h⟩
  | cons o os ih =>
    intro s h ho
    obtain ⟨s', e, h'⟩ := step_inv s o h (ho o (by simp))
    simp only [run, e]
    exact ih s' h' (fun p hp => ho p (by simp [hp]))

/-- After any use of writer and reader, when the reader is connected and reads, everything that was written is in the output.
Partial: without skipping in the output and without another place of the flag. -/
theorem C153_flushed_partial (l : List Op) (h : ∀ o ∈ l, o.usual = true) (s : St) (hs : run l (some init) = some s)
    (hc : s.conn = true) : ∃ s', run (l ++ [.read]) (some init) = some s' ∧ s'.buf = [] ∧ s'.conn = true := by
  obtain ⟨s0, e0, h1, h2⟩ := run_inv l init ⟨rfl, fun _ => rfl⟩ h
  have : s0 = s := by rw [hs] at e0; exact (Option.some.inj e0).symm
  subst this
  rw [run_append, hs]
  cases hd : s0.own with
  | false => exact ⟨s0, by simp [run, step, read, hc, isDirty, h1, hd], h2 hd, hc⟩
  | true =>
    refine ⟨{ flushed s0 with own := false }, ?_, rfl, hc⟩
    simp [run, step, read, hc, isDirty, h1, hd, setDirty, flushed]

example : (run [.connect true, .write 4, .write 5, .read] (some init)).map St.out = some [4, 5] := by decide

theorem step_items (s s' : St) (o : Op) (h : step s o = some s') : s'.out ++ s'.buf = s.out ++ s.buf ++ o.items := by
  cases o with
  | write x =>
    simp only [step, write] at h
    split at h
    · simp at h; subst h; simp [flushed, Op.items]
    · simp only [setDirty] at h
      split at h <;> simp at h <;> subst h <;> simp [Op.items]
  | skip => simp [step, skip] at h; subst h; simp [Op.items]
  | flush => simp [step] at h; subst h; simp [flushed, Op.items]
  | setChar c => simp [step] at h; subst h; simp [Op.items]
  | unsetChar => simp [step] at h; subst h; simp [Op.items]
  | connect b => simp [step] at h; subst h; simp [Op.items]
  | read =>
    simp only [step, read] at h
    split at h
    · split at h
      · simp at h
      · simp at h; subst h; simp [Op.items]
      · simp only [setDirty] at h
        split at h <;> simp at h <;> subst h <;> simp [Op.items, flushed]
    · simp at h; subst h; simp [Op.items]
  | setAddr a => simp only [step, setAddr] at h; split at h <;> simp at h <;> subst h <;> simp [Op.items]

/-- Whatever is done, output and buffer together are what was written, in order: nothing is lost, doubled or swapped. -/
theorem C153_order (l : List Op) : ∀ s s', run l (some s) = some s' →
    s'.out ++ s'.buf = s.out ++ s.buf ++ l.flatMap Op.items := by
  induction l with
  | nil => intro s s' h; simp [run] at h; subst h; simp
  | cons o os ih =>
    intro s s' h
    simp only [run] at h
    cases e : step s o with
    | none => rw [e, run_none] at h; simp at h
    | some s1 =>
      rw [e] at h
      rw [ih s1 s' h, step_items s s1 o e]
      simp

example : (run [.write 1, .flush, .skip] (some init)).map (fun s => (s.out, s.buf)) = some ([1], [0]) := by decide

/-- Writing the flush character puts everything written so far into the output, at once. -/
theorem C153_line (s : St) (c : Nat) (h : s.flushChar = some c) :
    ∃ s', step s (.write c) = some s' ∧ s'.buf = [] ∧ s'.out = s.out ++ s.buf ++ [c] ∧ s'.flushes = s.flushes + 1 := by
  refine ⟨flushed { s with buf := s.buf ++ [c] }, by simp only [step, write, if_pos h], rfl, ?_, rfl⟩
  simp [flushed]

example : (run [.setChar 10, .write 1, .write 10, .write 2] (some init)).map (fun s => (s.out, s.buf)) = some ([1, 10], [2]) := by
  decide

/-- Any other character stays in the buffer until it is flushed. -/
theorem C153_buffered (s : St) (x : Nat) (h : s.flushChar ≠ some x) (s' : St) (hs : step s (.write x) = some s') :
    s'.buf = s.buf ++ [x] ∧ s'.out = s.out ∧ s'.flushes = s.flushes := by
  simp only [step, write, if_neg h, setDirty] at hs
  split at hs <;> simp at hs <;> subst hs <;> exact ⟨rfl, rfl, rfl⟩

theorem read_clean (s : St) (h : isDirty s = some false) : ∀ n, run (List.replicate n .read) (some s) = some s := by
  intro n
  induction n with
  | zero => rfl
  | succ n ih =>
    simp only [List.replicate_succ, run, step]
    have : read s = some s := by
      simp only [read]
      split
      · rw [h]
      · rfl
    rw [this]; exact ih

theorem read_dirty (s s' : St) (hc : s.conn = true) (h : read s = some s') :
    isDirty s' = some false ∧ s'.flushes ≤ s.flushes + 1 := by
  obtain ⟨b, u, w, x, d, fc, cn, fl⟩ := s
  simp at hc; subst hc
  cases d <;> cases w <;> cases x <;> simp [read, isDirty, setDirty, flushed] at h <;> subst h <;>
    simp [isDirty]

/-- Reading again and again without writing flushes at most once. -/
theorem C153_once (s : St) (hc : s.conn = true) (n : Nat) (s' : St)
    (h : run (List.replicate n .read) (some s) = some s') : s'.flushes ≤ s.flushes + 1 := by
  cases n with
  | zero => simp [run] at h; subst h; omega
  | succ n =>
    simp only [List.replicate_succ, run, step] at h
    cases e : read s with
    | none => rw [e, run_none] at h; simp at h
    | some s1 =>
      have := read_dirty s s1 hc e
      rw [e, read_clean s1 this.1 n] at h
      simp at h; subst h; exact this.2

example : (run [.connect true, .write 4, .read, .read, .read] (some init)).map St.flushes = some 1 := by decide

/-- A reader that is not connected flushes nothing. -/
theorem C153_alone (s : St) (h : s.conn = false) : step s .read = some s := by
  simp [step, read, h]

example : (run [.write 4, .read] (some init)).map St.buf = some [4] := by decide

/-- The flush character and the connection after a history: the last ones set. -/
def chosen (c : Option Nat × Bool) : List Op → Option Nat × Bool
  | [] => c
  | .setChar x :: l => chosen (some x, c.2) l
  | .unsetChar :: l => chosen (none, c.2) l
  | .connect b :: l => chosen (c.1, b) l
  | _ :: l => chosen c l

theorem step_chosen (s s' : St) (o : Op) (h : step s o = some s') :
    chosen (s.flushChar, s.conn) [o] = (s'.flushChar, s'.conn) := by
  cases o with
  | write x =>
    simp only [step, write] at h
    split at h
    · simp at h; subst h; rfl
    · simp only [setDirty] at h
      split at h <;> simp at h <;> subst h <;> rfl
  | skip => simp [step, skip] at h; subst h; rfl
  | flush => simp [step] at h; subst h; rfl
  | setChar c => simp [step] at h; subst h; rfl
  | unsetChar => simp [step] at h; subst h; rfl
  | connect b => simp [step] at h; subst h; rfl
  | read =>
    simp only [step, read] at h
    split at h
    · split at h
      · simp at h
      · simp at h; subst h; rfl
      · simp only [setDirty] at h
        split at h <;> simp at h <;> subst h <;> rfl
    · simp at h; subst h; rfl
  | setAddr a => simp only [step, setAddr] at h; split at h <;> simp at h <;> subst h <;> rfl

theorem chosen_cons (c : Option Nat × Bool) (o : Op) (l : List Op) : chosen c (o :: l) = chosen (chosen c [o]) l := by
  cases o <;> rfl

/-- The flush character is the one set last and the reader is connected as it was said last; at first there is none and it is
not. -/
theorem C153_settings (l : List Op) (s : St) (h : run l (some init) = some s) :
    (s.flushChar, s.conn) = chosen (none, false) l := by
  suffices ∀ (l : List Op) (s0 : St), run l (some s0) = some s → (s.flushChar, s.conn) = chosen (s0.flushChar, s0.conn) l from
    this l init h
  intro l
  induction l with
  | nil => intro s0 h; simp [run] at h; subst h; rfl
  | cons o os ih =>
    intro s0 h
    simp only [run] at h
    cases e : step s0 o with
    | none => rw [e, run_none] at h; simp at h
    | some s1 =>
      rw [e] at h
      rw [ih s1 h, chosen_cons, step_chosen s0 s1 o e]

example : (run [.setChar 3, .connect true, .unsetChar, .connect false] (some init)).map (fun s => (s.flushChar, s.conn)) =
    some (none, false) := by decide

/-- What is skipped in the output is written to the buffer, but the reader does not know of it. -/
theorem C153_skip_violated :
    (run [.connect true, .skip, .read] (some init)).map (fun s => (s.out, s.buf)) = some ([], [0]) := by decide

/-- NULL does not choose the flag of the writer: the next write or read uses no flag at all. -/
theorem C153_null_violated :
    run [.setAddr none, .write 1] (some init) = none ∧ run [.connect true, .setAddr none, .read] (some init) = none := by decide

/-- Another place of the flag forgets what was written before. -/
theorem C153_place_violated :
    (run [.connect true, .write 1, .setAddr (some ()), .read] (some init)).map (fun s => (s.out, s.buf)) = some ([], [1]) := by
  decide

/-- Flushing does not clear the flag: the next read flushes again though nothing was written. -/
theorem C153_again_violated :
    (run [.connect true, .write 1, .flush, .read] (some init)).map St.flushes = some 2 := by decide

end LS.Autoflush

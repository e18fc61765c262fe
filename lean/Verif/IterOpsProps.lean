/-
C151: the default operations of iterators move exactly the items they say, in order, and a limiter lets through at most its
count. Model: `Verif/IterOps.lean`.
-/
import Verif.IterOps

namespace LS.IterOps

/-- A source all of whose items can be read. -/
def good (xs : List Nat) : Src := xs.map some

/-- The target after these items were written to it. -/
def Dst.after (d : Dst) (ys : List Nat) : Dst := ⟨d.out ++ ys, d.room - ys.length, d.ok⟩

theorem after_nil (d : Dst) : d.after [] = d := by simp [Dst.after]

theorem after_cons (d : Dst) (x : Nat) (ys : List Nat) : (d.after [x]).after ys = d.after (x :: ys) := by
  simp [Dst.after]; omega

theorem after_append (d : Dst) (ys zs : List Nat) : (d.after ys).after zs = d.after (ys ++ zs) := by
  simp [Dst.after]; omega

theorem write_after (d : Dst) (x : Nat) (h : d.room ≠ 0) : d.write x = some (d.after [x]) := by
  simp [Dst.write, Dst.after, h]

theorem readLoop_good (all : Bool) (xs : List Nat) (tl : Src) : ∀ sz rd, sz ≤ xs.length →
    readLoop all sz rd (good xs ++ tl) = (false, xs.take sz, good (xs.drop sz) ++ tl) := by
  induction xs with
  | nil => intro sz rd h; simp at h; subst h; simp [readLoop]
  | cons x xs ih =>
    intro sz rd h
    cases sz with
    | zero => simp [readLoop]
    | succ n =>
      have := ih n (rd + 1) (by simp at h; omega)
      simp [good] at this
      simp [readLoop, good, getNext, this]

theorem readLoop_end (all : Bool) (xs : List Nat) : ∀ sz rd, xs.length ≤ sz →
    readLoop all sz rd (good xs) = (false, xs, []) := by
  induction xs with
  | nil => intro sz rd _; cases sz <;> simp [readLoop, good]
  | cons x xs ih =>
    intro sz rd h
    cases sz with
    | zero => simp at h
    | succ n =>
      have := ih n (rd + 1) (by simp at h; omega)
      simp [good] at this
      simp [readLoop, good, getNext, this]

theorem readLoop_bad (all : Bool) (xs : List Nat) (tl : Src) : ∀ sz rd, xs.length < sz →
    readLoop all sz rd (good xs ++ none :: tl) = (rd + xs.length == 0 || all, xs, none :: tl) := by
  induction xs with
  | nil =>
    intro sz rd h
    cases sz with
    | zero => simp at h
    | succ n => simp [readLoop, good, getNext]
  | cons x xs ih =>
    intro sz rd h
    cases sz with
    | zero => simp at h
    | succ n =>
      have := ih n (rd + 1) (by simp at h; omega)
      simp [good] at this
      simp [readLoop, good, getNext, this]
      rw [show rd + 1 + xs.length = rd + (xs.length + 1) by omega]

/-- Reading a block takes the first items of the source, as many as there are or as fit, and says how many; the rest stays in
the source. -/
theorem C151_read (xs : List Nat) (sz : Nat) :
    blockRead sz false (good xs) = (.ok (min sz xs.length), xs.take sz, good (xs.drop sz)) := by
  unfold blockRead
  by_cases h0 : sz = 0
  · simp [h0]
  by_cases h : sz ≤ xs.length
  · have := readLoop_good false xs [] sz 0 h
    simp at this
    simp [h0, this, List.length_take]
  · have := readLoop_end false xs sz 0 (by omega)
    have e : xs.drop sz = [] := List.drop_eq_nil_of_le (by omega)
    have e' : xs.take sz = xs := List.take_of_length_le (by omega)
    rw [if_neg h0, this, e, e', Nat.min_eq_right (by omega)]
    simp [good]

example : blockRead 2 false (good [4, 5, 6]) = (.ok 2, [4, 5], [some 6]) := by decide

/-- Asked for all, it succeeds exactly when the buffer is filled; otherwise it throws with all items taken. -/
theorem C151_readall (xs : List Nat) (sz : Nat) :
    blockRead sz true (good xs) =
      if sz ≤ xs.length then (.ok sz, xs.take sz, good (xs.drop sz)) else (.exn, xs, []) := by
  unfold blockRead
  by_cases h0 : sz = 0
  · simp [h0]
  by_cases h : sz ≤ xs.length
  · have := readLoop_good true xs [] sz 0 h
    simp at this
    simp [h0, this, List.length_take, h]
  · have := readLoop_end true xs sz 0 (by omega)
    have : xs.length ≠ sz := by omega
    simp_all

example : blockRead 3 true (good [4, 5]) = (.exn, [4, 5], []) := by decide

/-- An item that cannot be read ends the block: the items before it are given, it stays in the source, and it throws when it is
first or when all was asked. -/
theorem C151_readbad (xs : List Nat) (tl : Src) (sz : Nat) (all : Bool) (h : xs.length < sz) :
    blockRead sz all (good xs ++ none :: tl) =
      (if xs = [] ∨ all = true then .exn else .ok xs.length, xs, none :: tl) := by
  unfold blockRead
  rw [if_neg (by omega), readLoop_bad all xs tl sz 0 h]
  cases xs <;> cases all <;> simp

example : blockRead 5 false [some 1, none, some 2] = (.ok 1, [1], [none, some 2]) := by decide

/-- How many items a limit lets through. -/
def lim (limit : Option Nat) (n : Nat) : Nat := match limit with | none => n | some l => min l n

theorem copyLoop_good (limit : Option Nat) (xs : List Nat) : ∀ f c d, xs.length < f →
    copyLoop limit f c (good xs) d =
      (.ok (c + min (lim (limit.map (· - c)) xs.length) d.room),
       good (xs.drop (min (lim (limit.map (· - c)) xs.length) d.room)),
       d.after (xs.take (min (lim (limit.map (· - c)) xs.length) d.room))) := by
  induction xs with
  | nil =>
    intro f c d h
    cases f with
    | zero => simp at h
    | succ f => cases limit <;> simp [copyLoop, good, lim, after_nil]
  | cons x xs ih =>
    intro f c d h
    cases f with
    | zero => simp at h
    | succ f =>
      by_cases hu : under c limit
      · by_cases hr : d.room = 0
        · simp [copyLoop, Dst.has, hr, after_nil]
        · have := ih f (c + 1) (d.after [x]) (by simp at h; omega)
          have k : min (lim (limit.map (· - c)) (x :: xs).length) d.room =
              min (lim (limit.map (· - (c + 1))) xs.length) (d.after [x]).room + 1 := by
            cases limit with
            | none => simp [lim, Dst.after]; omega
            | some l => simp [under] at hu; simp [lim, Dst.after]; omega
          rw [k]
          generalize min (lim (limit.map (· - (c + 1))) xs.length) (d.after [x]).room = m at this ⊢
          rw [List.take_succ_cons, List.drop_succ_cons, ← after_cons, show c + (m + 1) = c + 1 + m by omega, ← this]
          simp [copyLoop, hu, Dst.has, hr, good, getNext, write_after]
      · have k : lim (limit.map (· - c)) (x :: xs).length = 0 := by
          cases limit with
          | none => simp [under] at hu
          | some l => simp [under] at hu; simp [lim]; omega
        rw [k]
        simp [copyLoop, hu, after_nil]

/-- Copying moves the first items, as many as the limit, the source and the target allow, in order, and says how many. -/
theorem C151_copy (limit : Option Nat) (xs : List Nat) (d : Dst) (n : Nat)
    (hn : n = min (lim limit xs.length) d.room) :
    copy limit (good xs) d = (.ok n, good (xs.drop n), d.after (xs.take n)) := by
  have := copyLoop_good limit xs ((good xs).length + 1) 0 d (by simp [good])
  have e : limit.map (· - 0) = limit := by cases limit <;> rfl
  rw [e] at this
  simp only [Nat.zero_add] at this
  rw [copy, this, hn]

example : copy (some 5) (good [1, 2, 3]) ⟨[9], 2, fun _ => true⟩ =
    (.ok 2, [some 3], ⟨[9, 1, 2], 0, fun _ => true⟩) := by simp [copy, copyLoop, good, under, Dst.has, getNext, Dst.write]

/-- The items the copying of accepted ones moves: the longest start of the source that is accepted, within limit and room. -/
def accepted (ok : Nat → Bool) (n : Nat) (xs : List Nat) : List Nat := (xs.take n).takeWhile ok

theorem acceptLoop_good (limit : Option Nat) (xs : List Nat) : ∀ f c d, xs.length < f →
    ∀ ys, ys = accepted d.ok (min (lim (limit.map (· - c)) xs.length) d.room) xs →
    acceptLoop limit f c (good xs) d = (.ok (c + ys.length), good (xs.drop ys.length), d.after ys) := by
  induction xs with
  | nil =>
    intro f c d h ys hy
    cases f with
    | zero => simp at h
    | succ f => subst hy; simp [acceptLoop, good, accepted, after_nil]
  | cons x xs ih =>
    intro f c d h ys hy
    cases f with
    | zero => simp at h
    | succ f =>
      by_cases hu : under c limit
      · by_cases hr : d.room = 0
        · simp [hr, accepted] at hy; subst hy
          simp [acceptLoop, hu, good, peek, Dst.canAccept, Dst.has, hr, after_nil]
        · have k : min (lim (limit.map (· - c)) (x :: xs).length) d.room =
              min (lim (limit.map (· - (c + 1))) xs.length) (d.after [x]).room + 1 := by
            cases limit with
            | none => simp [lim, Dst.after]; omega
            | some l => simp [under] at hu; simp [lim, Dst.after]; omega
          rw [k, accepted, List.take_succ_cons, List.takeWhile_cons] at hy
          by_cases ho : d.ok x = true
          · rw [if_pos ho] at hy
            have := ih f (c + 1) (d.after [x]) (by simp at h; omega) _ rfl
            have e : (d.after [x]).ok = d.ok := rfl
            rw [e] at this
            change ys = x :: accepted d.ok _ xs at hy
            subst hy
            generalize accepted d.ok _ xs = zs at this ⊢
            rw [List.length_cons, List.drop_succ_cons, ← after_cons]
            rw [show ∀ m, c + (m + 1) = c + 1 + m from fun m => by omega, ← this]
            simp [acceptLoop, hu, good, peek, Dst.canAccept, Dst.has, hr, ho, getNext, write_after]
          · rw [if_neg ho] at hy; subst hy
            simp [acceptLoop, hu, good, peek, Dst.canAccept, Dst.has, ho, after_nil]
      · have k : lim (limit.map (· - c)) (x :: xs).length = 0 := by
          cases limit with
          | none => simp [under] at hu
          | some l => simp [under] at hu; simp [lim]; omega
        rw [k] at hy
        simp [accepted] at hy; subst hy
        simp [acceptLoop, hu, after_nil]

/-- Copying what is accepted stops before the first item that is not: that item stays in the source. -/
theorem C151_accepted (limit : Option Nat) (xs : List Nat) (d : Dst) (ys : List Nat)
    (hy : ys = (xs.take (min (lim limit xs.length) d.room)).takeWhile d.ok) :
    copyAccepted limit (good xs) d = (.ok ys.length, good (xs.drop ys.length), d.after ys) := by
  have e : limit.map (· - 0) = limit := by cases limit <;> rfl
  have := acceptLoop_good limit xs ((good xs).length + 1) 0 d (by simp [good]) ys (by rw [e]; exact hy)
  rw [copyAccepted, this]; simp

example : (copyAccepted none (good [1, 2, 7, 3]) ⟨[], 9, fun x => decide (x < 5)⟩).2.1 = [some 7, some 3] := by decide

theorem writeLoop_all (b : List Nat) : ∀ wr (d : Dst),
    writeLoop b wr d = some (wr + min b.length d.room, d.after (b.take d.room)) := by
  induction b with
  | nil => intro wr d; simp [writeLoop, after_nil]
  | cons x b ih =>
    intro wr d
    by_cases hr : d.room = 0
    · simp [writeLoop, Dst.has, hr, after_nil]
    · obtain ⟨r, hr'⟩ : ∃ r, d.room = r + 1 := ⟨d.room - 1, by omega⟩
      have e : (d.after [x]).room = r := by simp [Dst.after]; omega
      simp only [writeLoop, Dst.has, write_after d x hr]
      rw [ih, e, after_cons, hr', List.take_succ_cons]
      simp; omega

/-- Writing a block writes its first items, as many as there is room for, and says how many; asked for all, it throws exactly
when the room is too small. -/
theorem C151_write (all : Bool) (b : List Nat) (d : Dst) :
    blockWrite all b d =
      (if all = true ∧ d.room < b.length then .exn else .ok (min b.length d.room), d.after (b.take d.room)) := by
  simp only [blockWrite, writeLoop_all, Nat.zero_add]
  by_cases h : d.room < b.length
  · have : min b.length d.room ≠ b.length := by omega
    cases all <;> simp [h, this]
  · have e : min b.length d.room = b.length := by omega
    simp [h, e]

example : (blockWrite true [1, 2, 3] ⟨[], 2, fun _ => true⟩).1 = .exn := by decide

/-- What one reading of `blockCopy` asks for. -/
theorem ask_eq (buf : Nat) (limit : Option Nat) :
    toread buf limit = lim limit buf := by
  cases limit with
  | none => rfl
  | some l => simp only [lim, toread]; split <;> omega

theorem blockLoop_good (buf : Nat) (hb : 0 < buf) : ∀ f (xs : List Nat) limit c (d : Dst), xs.length < f →
    lim limit xs.length ≤ d.room →
    blockLoop buf f limit c (good xs) d =
      (.ok c, good (xs.drop (lim limit xs.length)), d.after (xs.take (lim limit xs.length))) := by
  intro f
  induction f with
  | zero => intro xs limit c d h; omega
  | succ f ih =>
    intro xs limit c d h hroom
    by_cases hz : limit = some 0
    · subst hz; simp [blockLoop, lim, after_nil]
    · rw [blockLoop, if_neg hz, ask_eq, C151_read]
      have ha : 0 < lim limit buf := by
        cases limit with
        | none => exact hb
        | some l => simp [lim] at hz ⊢; omega
      cases hx : min (lim limit buf) xs.length with
      | zero =>
        have e : xs = [] := List.length_eq_zero_iff.1 (by omega)
        subst e
        simp [after_nil]
      | succ rd =>
        have hl : rd + 1 ≤ lim limit xs.length := by
          cases limit with
          | none => simp [lim] at hx ⊢; omega
          | some l => simp [lim] at hx ⊢; omega
        have ht : xs.take (lim limit buf) = xs.take (rd + 1) := by
          by_cases hh : lim limit buf ≤ xs.length
          · rw [show rd + 1 = lim limit buf by omega]
          · rw [List.take_of_length_le (by omega), List.take_of_length_le (by omega)]
        have hd : xs.drop (lim limit buf) = xs.drop (rd + 1) := by
          by_cases hh : lim limit buf ≤ xs.length
          · rw [show rd + 1 = lim limit buf by omega]
          · rw [List.drop_eq_nil_of_le (by omega), List.drop_eq_nil_of_le (by omega)]
        have hlen : (xs.take (rd + 1)).length = rd + 1 := by rw [List.length_take]; omega
        simp only [ht, hd, C151_write]
        have c1 : ¬ (True ∧ d.room < (xs.take (rd + 1)).length) := by rw [hlen]; omega
        rw [if_neg c1, List.take_of_length_le (by rw [hlen]; omega : (xs.take (rd + 1)).length ≤ d.room)]
        simp only []
        have m : lim (limit.map (· - (rd + 1))) (xs.drop (rd + 1)).length + (rd + 1) = lim limit xs.length := by
          cases limit with
          | none => simp [lim] at hl ⊢; omega
          | some l => simp [lim] at hl ⊢; omega
        rw [ih (xs.drop (rd + 1)) _ c _ (by simp; omega) (by simp only [Dst.after, hlen]; omega)]
        rw [← m, List.drop_drop, Nat.add_comm (rd + 1)]
        congr 2
        rw [Nat.add_comm _ (rd + 1), List.take_add (i := rd + 1), after_append]

/-- Copying through a buffer moves the same items as copying, when there is room for them. Partial: the number it returns is
not theirs, and without room items are lost. -/
theorem C151_blockcopy_partial (buf : Nat) (hb : 0 < buf) (limit : Option Nat) (xs : List Nat) (d : Dst)
    (hr : lim limit xs.length ≤ d.room) :
    (blockCopy buf limit (good xs) d).2 = (good (xs.drop (lim limit xs.length)), d.after (xs.take (lim limit xs.length))) := by
  rw [blockCopy, blockLoop_good buf hb _ xs limit 0 d (by simp [good]) hr]

example : (blockCopy 2 (some 3) (good [1, 2, 3, 4]) ⟨[], 9, fun _ => true⟩).2.1 = [some 4] := by decide

theorem blockLoop_count (buf : Nat) : ∀ f limit c s (d : Dst) n, (blockLoop buf f limit c s d).1 = .ok n → n = c := by
  intro f
  induction f with
  | zero => intro limit c s d n h; simp [blockLoop] at h; exact h.symm
  | succ f ih =>
    intro limit c s d n h
    rw [blockLoop] at h
    split at h
    · simp at h; exact h.symm
    · split at h
      · simp at h
      · simp at h; exact h.symm
      · split at h
        · simp at h
        · exact ih _ _ _ _ _ h

/-- Copying through a buffer always returns zero. -/
theorem C151_zero_violated (buf : Nat) (limit : Option Nat) (s : Src) (d : Dst) (n : Nat)
    (h : (blockCopy buf limit s d).1 = .ok n) : n = 0 :=
  blockLoop_count buf _ limit 0 s d n h

example : (blockCopy 2 none (good [1, 2, 3]) ⟨[], 9, fun _ => true⟩).1 = .ok 0 := by decide

/-- Through a buffer, items the target has no room for are taken from the source and lost; plain copying leaves them. -/
theorem C151_lost_violated :
    (blockCopy 4 none (good [1, 2, 3]) ⟨[], 1, fun _ => true⟩).1 = .exn ∧
    (blockCopy 4 none (good [1, 2, 3]) ⟨[], 1, fun _ => true⟩).2.1 = [] ∧
    (blockCopy 4 none (good [1, 2, 3]) ⟨[], 1, fun _ => true⟩).2.2.out = [1] ∧
    (copy none (good [1, 2, 3]) ⟨[], 1, fun _ => true⟩).2.1 = [some 2, some 3] := by decide

theorem lim_all (xs : List Nat) : ∀ f n, xs.length < f →
    Lim.all f ⟨good xs, n⟩ = (xs.take n, ⟨good (xs.drop n), n - xs.length⟩) := by
  induction xs with
  | nil =>
    intro f n h
    cases f with
    | zero => simp at h
    | succ f => simp [Lim.all, Lim.has, good]
  | cons x xs ih =>
    intro f n h
    cases f with
    | zero => simp at h
    | succ f =>
      cases n with
      | zero => simp [Lim.all, Lim.has]
      | succ n =>
        have := ih f n (by simp at h; omega)
        simp only [good] at this
        simp [Lim.all, Lim.has, Lim.next, good, getNext, this]

/-- Through a limiter exactly the first `n` items of the source are read; the others stay in it. -/
theorem C151_limit (xs : List Nat) (n f : Nat) (h : xs.length < f) :
    (Lim.all f ⟨good xs, n⟩).1 = xs.take n ∧ (Lim.all f ⟨good xs, n⟩).2.src = good (xs.drop n) := by
  rw [lim_all xs f n h]; exact ⟨rfl, rfl⟩

example : (Lim.all 9 ⟨good [1, 2, 3], 2⟩).1 = [1, 2] := by decide

/-- The limiter knows how many items it will give, has items exactly when that is not zero, and then and only then gives the
one it shows; after it there is one less. -/
theorem C151_remain (xs : List Nat) (n : Nat) :
    (Lim.mk (good xs) n).remain = (xs.take n).length ∧
    ((Lim.mk (good xs) n).has = true ↔ xs.take n ≠ []) ∧
    (Lim.mk (good xs) n).peek = (xs.take n).head? ∧
    ((Lim.mk (good xs) n).next = (xs.take n).head?.map fun x => (x, ⟨good (xs.drop 1), n - 1⟩)) := by
  refine ⟨?_, ?_, ?_, ?_⟩
  · simp [Lim.remain, good]; split <;> omega
  · cases xs <;> cases n <;> simp [Lim.has, good]
  · cases xs <;> cases n <;> simp [Lim.peek, good, peek]
  · cases xs <;> cases n <;> simp [Lim.next, good, getNext]

example : (Lim.mk (good [1, 2, 3]) 2).remain = 2 := by decide

/-- Reading through the limiter throws exactly when it is used up or the source throws. -/
theorem C151_throws (l : Lim) : l.next = none ↔ l.count = 0 ∨ getNext l.src = none := by
  by_cases hc : l.count = 0
  · simp [Lim.next, hc]
  · cases hs : getNext l.src with
    | none => simp [Lim.next, hs]
    | some p => simp [Lim.next, hc, hs]

example : (Lim.mk [none, some 3] 2).next = none := by decide

theorem skips_good (xs : List Nat) : ∀ n, skips n (good xs) = some (good (xs.drop n)) := by
  induction xs with
  | nil => intro n; cases n <;> simp [skips, good]
  | cons x xs ih =>
    intro n
    cases n with
    | zero => simp [skips]
    | succ n => have := ih n; simp only [good] at this; simp [skips, good, getNext, this]

/-- With an offset, a limiter of a referred iterator starts behind the skipped items. -/
theorem C151_offset_partial (xs : List Nat) (n off : Nat) :
    Lim.new true (good xs) n off = some ⟨good (xs.drop off), n⟩ := by
  simp [Lim.new, skips_good]

example : Lim.new true (good [1, 2, 3]) 5 1 = some ⟨[some 2, some 3], 5⟩ := by decide

/-- A limiter of a copied iterator skips nothing, whatever the offset. -/
theorem C151_offset_violated (xs : List Nat) (n off : Nat) :
    Lim.new false (good xs) n off = some ⟨good xs, n⟩ := by
  simp [Lim.new, skips_good]

example : (Lim.new false (good [1, 2, 3]) 5 1).map Lim.peek = some (some 1) := by decide

theorem cap_eq (limit : Option Nat) (n m : Nat) : lim (some (cap limit n)) m = lim limit (min n m) := by
  cases limit with
  | none => simp [lim, cap]
  | some l => simp only [lim, cap]; split <;> omega

/-- Copying through a limiter moves at most what is left of its count, and uses it up by what was moved. -/
theorem C151_limcopy (w : WLim) (limit : Option Nat) (xs : List Nat) (n : Nat)
    (hn : n = min (lim limit (min w.count xs.length)) w.dst.room) :
    w.copy limit (good xs) = (.ok n, good (xs.drop n), ⟨w.dst.after (xs.take n), w.count - n⟩) := by
  rw [WLim.copy, C151_copy _ xs w.dst n (by rw [cap_eq]; exact hn)]

example : (WLim.copy ⟨⟨[], 9, fun _ => true⟩, 2⟩ none (good [1, 2, 3])).1 = .ok 2 := by decide

/-- The same for copying what is accepted. -/
theorem C151_limaccepted (w : WLim) (limit : Option Nat) (xs : List Nat) (ys : List Nat)
    (hy : ys = (xs.take (min (lim limit (min w.count xs.length)) w.dst.room)).takeWhile w.dst.ok) :
    w.copyAccepted limit (good xs) =
      (.ok ys.length, good (xs.drop ys.length), ⟨w.dst.after ys, w.count - ys.length⟩) := by
  rw [WLim.copyAccepted, C151_accepted _ xs w.dst ys (by rw [cap_eq]; exact hy)]

example : (WLim.copyAccepted ⟨⟨[], 9, fun x => decide (x < 2)⟩, 2⟩ none (good [1, 2, 3])).1 = .ok 1 := by decide

/-- Writing through a limiter succeeds exactly when it says that it has room, and uses one up. -/
theorem C151_limwrite (w : WLim) (x : Nat) :
    w.write x = if w.has then some ⟨w.dst.after [x], w.count - 1⟩ else none := by
  by_cases hc : w.count = 0
  · simp [WLim.write, WLim.has, hc]
  · by_cases hr : w.dst.room = 0
    · simp [WLim.write, WLim.has, hc, Dst.write, Dst.has, hr]
    · simp [WLim.write, WLim.has, hc, Dst.has, hr, write_after, show 0 < w.count by omega]

example : (WLim.write ⟨⟨[], 9, fun _ => true⟩, 2⟩ 5).map (·.dst.out) = some [5] := by decide

/-- A limiter that is used up still says that it accepts items, and throws when one is written. -/
theorem C151_accept_violated (d : Dst) (x : Nat) (h : d.canAccept x = true) :
    (WLim.mk d 0).canAccept x = true ∧ (WLim.mk d 0).write x = none :=
  ⟨h, rfl⟩

example : (WLim.mk ⟨[], 9, fun _ => true⟩ 0).canAccept 3 = true := by decide

end LS.IterOps

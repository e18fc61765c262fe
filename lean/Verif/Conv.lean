import Verif.Basic
/-!
# Model of the converter driver, `base/iter/iterConv.h`

A converter is a state machine with the flags `hasItems` and `eolb` and the operations
`getNext`, `write`, `flush`.  `none` stands for an exception or undefined behaviour inside the
converter.  The `while (hasItems)` loops carry a step bound; running out of it is also `none`.
Target iterators are taken to accept every item (`target.hasItems()` always true).
-/

namespace LS

/-- iterConv.h:18-62 `IConverter` (the `needItems` flag is only advisory: the driver
never reads it). -/
structure Conv (σ α β : Type) where
  hasItems : σ → Bool
  eolb : σ → Bool
  getNext : σ → Option (β × σ)
  write : σ → α → Option σ
  flush : σ → Option σ

namespace Conv
variable {σ α β : Type} (c : Conv σ α β)

/-- The loop `while (this->hasItems) target.write(Super::getNext());` that occurs in
`blockWrite`, `writeToIter` and `flushToIter` (iterConv.h:386-389, 397, 430-436, 493-495). -/
def drain : Nat → σ → Option (List β × σ)
  | 0, s => if c.hasItems s then none else some ([], s)
  | n + 1, s =>
    if c.hasItems s then
      match c.getNext s with
      | none => none
      | some (x, s1) =>
        match drain n s1 with
        | none => none
        | some (xs, s2) => some (x :: xs, s2)
    else some ([], s)

/-- iterConv.h:427-437 `ConverterBase::writeToIter`. -/
def writeToIter (fuel : Nat) (s : σ) (item : α) : Option (List β × σ) :=
  match c.drain fuel s with
  | none => none
  | some (o1, s1) =>
    match c.write s1 item with
    | none => none
    | some s2 =>
      match c.drain fuel s2 with
      | none => none
      | some (o2, s3) => some (o1 ++ o2, s3)

/-- iterConv.h:489-496 `ConverterBase::flushToIter`. -/
def flushToIter (fuel : Nat) (s : σ) : Option (List β × σ) :=
  match c.flush s with
  | none => none
  | some s1 => c.drain fuel s1

/-- A sequence of single-item writes through a `ConvertWriteIter` (iterConv.h:154-156). -/
def writeMany (fuel : Nat) : σ → List α → Option (List β × σ)
  | s, [] => some ([], s)
  | s, a :: l =>
    match c.writeToIter fuel s a with
    | none => none
    | some (o1, s1) =>
      match writeMany fuel s1 l with
      | none => none
      | some (o2, s2) => some (o1 ++ o2, s2)

/-- Writing all items of `l` and destroying the `ConvertWriteIter`, whose destructor flushes
(iterConv.h:148-150). The result is everything that reached the target. -/
def run (fuel : Nat) (s : σ) (l : List α) : Option (List β) :=
  match c.writeMany fuel s l with
  | none => none
  | some (o1, s1) =>
    match c.flushToIter fuel s1 with
    | none => none
    | some (o2, _) => some (o1 ++ o2)

/-- The item loop of `blockWrite`, iterConv.h:394-399: stop in front of an item once `eolb` is
set, otherwise write it and drain. Returns items consumed, output, state. -/
def blockLoop (fuel : Nat) : σ → List α → Option (Nat × List β × σ)
  | s, [] => some (0, [], s)
  | s, a :: l =>
    if c.eolb s then some (0, [], s)
    else
      match c.write s a with
      | none => none
      | some s1 =>
        match c.drain fuel s1 with
        | none => none
        | some (o1, s2) =>
          match blockLoop fuel s2 l with
          | none => none
          | some (n, o2, s3) => some (n + 1, o1 ++ o2, s3)

/-- iterConv.h:382-402 `ConverterBase::blockWrite`. -/
def blockWrite (fuel : Nat) (s : σ) (l : List α) : Option (Nat × List β × σ) :=
  match c.drain fuel s with
  | none => none
  | some (o1, s1) =>
    match c.blockLoop fuel s1 l with
    | none => none
    | some (n, o2, s2) => some (n, o1 ++ o2, s2)

/-- iterConv.h:461-482 `ConverterBase::hasItemsFromIter`, the source being the list of items
not yet read. Returns the answer, the new converter state and the remaining source. -/
def hasItemsFromIter : σ → List α → Option (Bool × σ × List α)
  | s, [] => some (c.hasItems s, s, [])
  | s, a :: src =>
    if c.hasItems s then some (true, s, a :: src)
    else if c.eolb s then some (false, s, a :: src)
    else
      match c.write s a with
      | none => none
      | some s1 => hasItemsFromIter s1 src

/-- iterConv.h:111-117 `ConvertReadIter::hasItems` with `implicitFlush = true`. -/
def iterHasItems (s : σ) (src : List α) : Option (Bool × σ × List α) :=
  match c.hasItemsFromIter s src with
  | none => none
  | some (true, s1, r) => some (true, s1, r)
  | some (false, s1, r) =>
    match c.flush s1 with
    | none => none
    | some s2 => some (c.hasItems s2, s2, r)

/-- iterConv.h:439-448 `ConverterBase::getNextFromIter`; `none` also covers the
"no more items" exception. -/
def getNextFromIter : σ → List α → Option (β × σ × List α)
  | s, [] => if c.hasItems s then (c.getNext s).map (fun (x, s1) => (x, s1, [])) else none
  | s, a :: src =>
    if c.hasItems s then (c.getNext s).map (fun (x, s1) => (x, s1, a :: src))
    else if c.eolb s then none
    else
      match c.write s a with
      | none => none
      | some s1 => getNextFromIter s1 src

/-- A reader's loop `while (iter.hasItems()) out.add(iter.getNext())` over a
`ConvertReadIter`. Returns the items read and the unread source. -/
def readAll : Nat → σ → List α → Option (List β × List α)
  | 0, _, _ => none
  | n + 1, s, src =>
    match c.iterHasItems s src with
    | none => none
    | some (false, _, r) => some ([], r)
    | some (true, s1, r) =>
      match c.getNextFromIter s1 r with
      | none => none
      | some (x, s2, r2) =>
        match readAll n s2 r2 with
        | none => none
        | some (xs, r3) => some (x :: xs, r3)

/-- The inner loop of `blockRead`, iterConv.h:409-420. -/
inductive Fetch (σ α : Type) where
  /-- the converter has an item -/
  | item (s : σ) (src : List α)
  /-- `eolb` -/
  | stop (s : σ) (src : List α)
  /-- the source is empty, the converter has been flushed -/
  | last (s : σ)

/-- iterConv.h:409-420; reading an empty source is an exception (`none`). -/
def fetch : σ → List α → Option (Fetch σ α)
  | s, [] =>
    if c.hasItems s then some (.item s [])
    else if c.eolb s then some (.stop s [])
    else none
  | s, a :: src =>
    if c.hasItems s then some (.item s (a :: src))
    else if c.eolb s then some (.stop s (a :: src))
    else
      match c.write s a with
      | none => none
      | some s1 =>
        if src.isEmpty then (c.flush s1).map .last else fetch s1 src

/-- iterConv.h:414-417: at most `n` items. -/
def take : Nat → σ → Option (List β × σ)
  | 0, s => some ([], s)
  | n + 1, s =>
    if c.hasItems s then
      match c.getNext s with
      | none => none
      | some (x, s1) =>
        match take n s1 with
        | none => none
        | some (xs, s2) => some (x :: xs, s2)
    else some ([], s)

/-- iterConv.h:404-425 `ConverterBase::blockRead` into an array of `n` items: the items read, the
state and the remaining source. -/
def blockRead : Nat → σ → List α → Option (List β × σ × List α)
  | 0, s, src => some ([], s, src)
  | n + 1, s, src =>
    match c.fetch s src with
    | none => none
    | some (.stop s1 r) => some ([], s1, r)
    | some (.last s1) =>
      match c.take (n + 1) s1 with
      | none => none
      | some (xs, s2) => some (xs, s2, [])
    | some (.item s1 r) =>
      match c.getNext s1 with
      | none => none
      | some (x, s2) =>
        match blockRead n s2 r with
        | none => none
        | some (xs, s3, r3) => some (x :: xs, s3, r3)

/-! ## General lemmas -/

theorem drain_idle {n : Nat} {s : σ} (h : c.hasItems s = false) : c.drain n s = some ([], s) := by
  cases n <;> simp [drain, h]

theorem drain_post {n : Nat} {s : σ} {o : List β} {s' : σ} (h : c.drain n s = some (o, s')) :
    c.hasItems s' = false := by
  induction n generalizing s o with
  | zero =>
    rw [drain] at h
    split at h
    · cases h
    · next hh => cases h; simpa using hh
  | succ n ih =>
    rw [drain] at h
    split at h
    · split at h
      · cases h
      · split at h
        · cases h
        · next hd => cases h; exact ih hd
    · next hh => cases h; simpa using hh

theorem drain_mono {n m : Nat} (hnm : n ≤ m) {s : σ} {r : List β × σ}
    (h : c.drain n s = some r) : c.drain m s = some r := by
  induction n generalizing s r m with
  | zero =>
    rw [drain] at h
    split at h
    · cases h
    · next hh => cases h; exact c.drain_idle (by simpa using hh)
  | succ n ih =>
    obtain ⟨m, rfl⟩ : ∃ k, m = k + 1 := ⟨m - 1, by omega⟩
    rw [drain] at h ⊢
    split at h
    · next hh =>
      rw [if_pos hh]
      split at h
      · cases h
      · next hg =>
        split at h
        · cases h
        · next hd => rw [ih (m := m) (by omega) hd]; exact h
    · next hh => rw [if_neg hh]; exact h

theorem writeToIter_idle {n : Nat} {s : σ} (h : c.hasItems s = false) (a : α) :
    c.writeToIter n s a =
      match c.write s a with
      | none => none
      | some s2 => c.drain n s2 := by
  simp only [writeToIter, c.drain_idle h]
  cases c.write s a with
  | none => rfl
  | some s2 =>
    simp only
    cases c.drain n s2 <;> simp

theorem writeToIter_of {n : Nat} {s s1 : σ} {a : α} {r : List β × σ} (h : c.hasItems s = false)
    (hw : c.write s a = some s1) (hd : c.drain n s1 = some r) : c.writeToIter n s a = some r := by
  rw [c.writeToIter_idle h, hw]; exact hd

theorem drain_step {n : Nat} {s s1 s2 : σ} {x : β} {o : List β} (h : c.hasItems s = true)
    (hg : c.getNext s = some (x, s1)) (hd : c.drain n s1 = some (o, s2)) :
    c.drain (n + 1) s = some (x :: o, s2) := by
  rw [drain, if_pos h, hg]
  simp only [hd]

theorem writeMany_append (n : Nat) (s : σ) (l m : List α) :
    c.writeMany n s (l ++ m) =
      match c.writeMany n s l with
      | none => none
      | some (o1, s1) =>
        match c.writeMany n s1 m with
        | none => none
        | some (o2, s2) => some (o1 ++ o2, s2) := by
  induction l generalizing s with
  | nil => simp only [List.nil_append, writeMany]; cases c.writeMany n s m <;> simp
  | cons a l ih =>
    simp only [List.cons_append, writeMany]
    cases c.writeToIter n s a with
    | none => rfl
    | some p =>
      obtain ⟨o1, s1⟩ := p
      simp only [ih]
      cases c.writeMany n s1 l with
      | none => rfl
      | some q =>
        obtain ⟨o2, s2⟩ := q
        simp only
        cases c.writeMany n s2 m with
        | none => rfl
        | some r => simp

theorem writeMany_post {n : Nat} {s : σ} {l : List α} {o : List β} {s' : σ}
    (h0 : c.hasItems s = false) (h : c.writeMany n s l = some (o, s')) :
    c.hasItems s' = false := by
  induction l generalizing s o with
  | nil => simp only [writeMany] at h; cases h; exact h0
  | cons a l ih =>
    simp only [writeMany] at h
    split at h
    · cases h
    · next hw =>
      split at h
      · cases h
      · next hm =>
        cases h
        refine ih ?_ hm
        rw [c.writeToIter_idle h0] at hw
        split at hw
        · cases hw
        · exact c.drain_post hw

theorem run_nil (n : Nat) (s : σ) :
    c.run n s [] = (c.flushToIter n s).map (·.1) := by
  simp only [run, writeMany]
  cases c.flushToIter n s <;> simp

theorem run_cons {n : Nat} {s : σ} {a : α} {o : List β} {s1 : σ}
    (h : c.writeToIter n s a = some (o, s1)) (l : List α) :
    c.run n s (a :: l) = (c.run n s1 l).map (o ++ ·) := by
  simp only [run, writeMany, h]
  cases c.writeMany n s1 l with
  | none => rfl
  | some p =>
    obtain ⟨o2, s2⟩ := p
    simp only
    cases c.flushToIter n s2 with
    | none => rfl
    | some q => simp

end Conv
end LS

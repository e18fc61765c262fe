import Verif.TextIn
/-
C111: the line reader gives the lines of the source.
C112: so does `TextIn::readLine`.
C113: iterators of the look-ahead buffer read the source at independent places.
-/
namespace LS.TextIn

/-! ## Lines, independent of the model -/

/-- `nl` occurs in `t` at place `n`. -/
def At (nl t : List Nat) (n : Nat) : Prop := ∃ a b, t = a ++ nl ++ b ∧ a.length = n

/-- The first line of a text and what follows it: the line ends at the first occurrence of the separator, or at the end of the text. -/
inductive Line (nl : List Nat) : List Nat → List Nat → List Nat → Prop
  | sep {l r : List Nat} : (∀ n, At nl (l ++ nl ++ r) n → l.length ≤ n) → Line nl (l ++ nl ++ r) l r
  | last {t : List Nat} : (∀ n, ¬ At nl t n) → Line nl t t []

/-- All lines of a text. -/
inductive Lines (nl : List Nat) : List Nat → List (List Nat) → Prop
  | nil : Lines nl [] []
  | cons {t l r : List Nat} {ls : List (List Nat)} : t ≠ [] → Line nl t l r → Lines nl r ls → Lines nl t (l :: ls)

theorem Line.det {nl t l r l' r' : List Nat} (h : Line nl t l r) (h' : Line nl t l' r') : l = l' ∧ r = r' := by
  cases h with
  | sep m =>
    generalize ht : l ++ nl ++ r = t at h'
    cases h' with
    | sep m' =>
      have e1 : l.length ≤ l'.length := m _ ⟨l', r', ht, rfl⟩
      have e2 : l'.length ≤ l.length := m' _ ⟨l, r, ht.symm, rfl⟩
      rw [List.append_assoc, List.append_assoc] at ht
      have := List.append_inj ht (by omega)
      refine ⟨this.1, (List.append_inj this.2 rfl).2⟩
    | last m' => exact absurd ⟨l, r, ht.symm, rfl⟩ (m' _)
  | last m =>
    cases h' with
    | sep m' => exact absurd ⟨l', r', rfl, rfl⟩ (m _)
    | last m' => exact ⟨rfl, rfl⟩

/-! ## C111 -/

theorem tail_eq {b sep : List Nat} : tail b sep.length = sep ↔ ∃ l, b = l ++ sep := by
  unfold tail
  constructor
  · intro h
    exact ⟨b.take (b.length - if sep.length > b.length then b.length else sep.length), by
      conv => rhs; rhs; rw [← h]
      exact (List.take_append_drop _ _).symm⟩
  · rintro ⟨l, rfl⟩
    have : ¬ sep.length > (l ++ sep).length := by simp
    simp only [this, if_false]
    rw [List.length_append, Nat.add_sub_cancel, List.drop_left]

theorem fetch_ok {sep : List Nat} (hs : sep ≠ []) : ∀ (src b : List Nat), (∀ n, ¬ At sep b n) →
    Line sep (b ++ src) (fetchLoop sep b src).1 (fetchLoop sep b src).2
  | [], b, h => by
    rw [List.append_nil]
    exact .last h
  | ch :: src, b, h => by
    unfold fetchLoop
    by_cases e : tail (b ++ [ch]) sep.length = sep
    · simp only [e, if_true]
      obtain ⟨l, hl⟩ := tail_eq.mp e
      have e1 : (b ++ [ch]).take ((b ++ [ch]).length - sep.length) = l := by
        rw [hl, List.length_append, Nat.add_sub_cancel, List.take_left]
      rw [e1]
      have e2 : b ++ ch :: src = l ++ sep ++ src := by rw [← hl]; simp
      rw [e2]
      refine .sep fun n ⟨a, c, h1, h2⟩ => ?_
      apply Classical.byContradiction
      intro hn
      have hlen : b.length + 1 = l.length + sep.length := by
        have := congrArg List.length hl
        simpa using this
      have h3 : b ++ ch :: src = (a ++ sep) ++ c := by rw [e2, h1]
      have h4 : (a ++ sep) <+: b := by
        refine List.prefix_of_prefix_length_le (l₃ := b ++ ch :: src) ⟨c, h3.symm⟩ ⟨_, rfl⟩ ?_
        rw [List.length_append]; omega
      obtain ⟨d, hd⟩ := h4
      exact h n ⟨a, d, hd.symm, h2⟩
    · simp only [e, if_false]
      have e2 : b ++ ch :: src = (b ++ [ch]) ++ src := by simp
      rw [e2]
      refine fetch_ok hs src (b ++ [ch]) fun n ⟨a, c, h1, h2⟩ => ?_
      rcases List.eq_nil_or_concat c with rfl | ⟨c', x, rfl⟩
      · exact e (tail_eq.mpr ⟨a, by rw [h1, List.append_nil]⟩)
      · rw [List.concat_eq_append, ← List.append_assoc] at h1
        have := List.append_inj' h1 rfl
        exact h n ⟨a, c', this.1, h2⟩

theorem no_at_nil {sep : List Nat} (hs : sep ≠ []) (n : Nat) : ¬ At sep [] n := by
  rintro ⟨a, b, h, _⟩
  have := congrArg List.length h
  have := List.length_pos_iff.mpr hs
  simp at *
  omega

/-- Calls of the reader. -/
inductive Op where
  | has
  | peek
  | next
deriving DecidableEq, Repr

/-- What a call gives; `none` is the exception. -/
inductive Ev where
  | has (b : Bool)
  | peek (l : Option (List Nat))
  | next (l : Option (List Nat))
deriving DecidableEq, Repr

/-- A reader of lines as it should be: the state is the text not yet returned. -/
inductive Tr (nl : List Nat) : List Nat → List Op → List Ev → Prop
  | nil {t : List Nat} : Tr nl t [] []
  | has {t : List Nat} {os : List Op} {es : List Ev} {b : Bool} : (b = true ↔ t ≠ []) → Tr nl t os es → Tr nl t (.has :: os) (.has b :: es)
  | peek {t l r : List Nat} {os : List Op} {es : List Ev} : t ≠ [] → Line nl t l r → Tr nl t os es → Tr nl t (.peek :: os) (.peek (some l) :: es)
  | next {t l r : List Nat} {os : List Op} {es : List Ev} : t ≠ [] → Line nl t l r → Tr nl r os es → Tr nl t (.next :: os) (.next (some l) :: es)
  | peekEnd {os : List Op} {es : List Ev} : Tr nl [] os es → Tr nl [] (.peek :: os) (.peek none :: es)
  | nextEnd {os : List Op} {es : List Ev} : Tr nl [] os es → Tr nl [] (.next :: os) (.next none :: es)

/-- The calls on the model. -/
def Reader.run (sep : List Nat) : Reader → List Op → List Ev
  | _, [] => []
  | s, .has :: os => .has (s.hasItems sep).1 :: (s.hasItems sep).2.run sep os
  | s, .peek :: os =>
    match s.peek sep with
    | .ok (l, s) => .peek (some l) :: s.run sep os
    | _ => .peek none :: s.run sep os
  | s, .next :: os =>
    match s.getNext sep with
    | .ok (l, s) => .next (some l) :: s.run sep os
    | _ => .next none :: s.run sep os

/-- The reader is at text `t`. -/
def Rel (sep : List Nat) (s : Reader) (t : List Nat) : Prop :=
  (s.needFetch = true ∧ s.src = t) ∨ (s.needFetch = false ∧ t ≠ [] ∧ Line sep t s.buffer s.src)

theorem fetchLine_ok {sep : List Nat} (hs : sep ≠ []) {s : Reader} {t : List Nat} (h : Rel sep s t) :
    (t = [] ∧ s.fetchLine sep = (false, s)) ∨
    (t ≠ [] ∧ (s.fetchLine sep).1 = true ∧ (s.fetchLine sep).2.needFetch = false ∧ Line sep t (s.fetchLine sep).2.buffer (s.fetchLine sep).2.src) := by
  unfold Reader.fetchLine
  rcases h with ⟨h1, h2⟩ | ⟨h1, h2, h3⟩
  · rw [h1, h2]
    by_cases e : t = []
    · left; subst e; exact ⟨rfl, by simp⟩
    · right
      simp only [if_true, ne_eq, e, not_false_eq_true]
      refine ⟨trivial, trivial, trivial, ?_⟩
      exact fetch_ok hs t [] (no_at_nil hs)
  · right
    rw [h1]
    exact ⟨h2, rfl, h1, h3⟩

/-- C111: for every separator, text and sequence of calls the reader gives the lines of the text; `hasItems` and `peek` do not change what is read. -/
theorem C111_reader {sep : List Nat} (hs : sep ≠ []) : ∀ (os : List Op) {s : Reader} {t : List Nat}, Rel sep s t → Tr sep t os (s.run sep os)
  | [], _, _, _ => .nil
  | o :: os, s, t, h => by
    have k := fetchLine_ok hs h
    cases o with
    | has =>
      unfold Reader.run Reader.hasItems
      rcases k with ⟨k1, k2⟩ | ⟨k1, k2, k3, k4⟩
      · refine .has (by rw [k2, k1]; simp) (C111_reader hs os ?_)
        rw [k2]; exact h
      · exact .has (by rw [k2]; simp [k1]) (C111_reader hs os (.inr ⟨k3, k1, k4⟩))
    | peek =>
      unfold Reader.run Reader.peek
      rcases k with ⟨k1, k2⟩ | ⟨k1, k2, k3, k4⟩
      · subst k1
        rw [k2]
        exact .peekEnd (C111_reader hs os h)
      · simp only [k2, if_true]
        exact .peek k1 k4 (C111_reader hs os (.inr ⟨k3, k1, k4⟩))
    | next =>
      unfold Reader.run Reader.getNext
      rcases k with ⟨k1, k2⟩ | ⟨k1, k2, k3, k4⟩
      · subst k1
        rw [k2]
        exact .nextEnd (C111_reader hs os h)
      · simp only [k2, if_true]
        exact .next k1 k4 (C111_reader hs os (.inl ⟨rfl, rfl⟩))

theorem line_shorter {nl t l r : List Nat} (hs : nl ≠ []) (ht : t ≠ []) (h : Line nl t l r) : r.length < t.length := by
  have := List.length_pos_iff.mpr hs
  have := List.length_pos_iff.mpr ht
  cases h with
  | sep => simp only [List.length_append]; omega
  | last => simpa using this

/-- C111: reading until the end gives all lines of the text. -/
theorem C111_lines {sep : List Nat} (hs : sep ≠ []) : ∀ (n : Nat) (t : List Nat) (s : Reader), t.length ≤ n → Rel sep s t →
    ∃ ls, Lines sep t ls ∧ s.run sep (List.replicate ls.length .next ++ [.has]) = ls.map (fun l => Ev.next (some l)) ++ [.has false]
  | n, [], s, _, h => by
    refine ⟨[], .nil, ?_⟩
    rcases fetchLine_ok hs h with ⟨_, k⟩ | ⟨k, _⟩
    · simp [Reader.run, Reader.hasItems, k]
    · exact absurd rfl k
  | 0, x :: t, s, hn, _ => by simp at hn
  | n + 1, x :: t, s, hn, h => by
    rcases fetchLine_ok hs h with ⟨k, _⟩ | ⟨k1, k2, k3, k4⟩
    · cases k
    · have hl := line_shorter hs k1 k4
      obtain ⟨ls, h1, h2⟩ := C111_lines hs n _ { (s.fetchLine sep).2 with needFetch := true } (by simp only [List.length_cons] at hn hl; simp only; omega) (.inl ⟨rfl, rfl⟩)
      refine ⟨_ :: ls, .cons k1 k4 h1, ?_⟩
      simp only [List.length_cons, List.replicate_succ, List.cons_append, List.map_cons]
      rw [Reader.run, Reader.getNext]
      simp only [k2, if_true]
      rw [h2]

/-- Concrete case: separator CR LF, a lone CR belongs to the line. -/
example : Reader.run [13, 10] ⟨[97, 13, 13, 10, 98, 13, 10, 13, 10, 99], [], true⟩ [.has, .next, .peek, .next, .next, .has, .next, .has, .next] =
    [.has true, .next (some [97, 13]), .peek (some [98]), .next (some [98]), .next (some []), .has true, .next (some [99]), .has false, .next none] := by decide

/-! ## The look-ahead buffer -/

theorem preload_eq (n : Nat) : ∀ (src b : List Nat), preloadLoop n b src = (b ++ src.take (n + 1 - b.length), src.drop (n + 1 - b.length))
  | [], b => by simp [preloadLoop]
  | x :: src, b => by
    unfold preloadLoop
    by_cases h : b.length < n + 1
    · rw [if_pos h, preload_eq n src (b ++ [x])]
      obtain ⟨k, hk⟩ : ∃ k, n + 1 - b.length = k + 1 := ⟨n - b.length, by omega⟩
      have hk' : n + 1 - (b ++ [x]).length = k := by simp; omega
      rw [hk', hk]
      simp
    · rw [if_neg h]
      have : n + 1 - b.length = 0 := by omega
      rw [this]; simp

/-- What is left of the text, and the place in it of an iterator. -/
def Buf.text (s : Buf) : List Nat := s.buf ++ s.src

theorem preload_text (s : Buf) (n : Nat) : (s.preload n).text = s.text := by
  unfold Buf.preload Buf.text
  rw [preload_eq]
  simp

theorem preload_len (s : Buf) (n : Nat) (h : n < s.text.length) : n < (s.preload n).buf.length := by
  unfold Buf.preload
  unfold Buf.text at h
  rw [preload_eq]
  simp only [List.length_append, List.length_take] at h ⊢
  omega

theorem preload_ge (s : Buf) (n : Nat) : s.buf.length ≤ (s.preload n).buf.length := by
  unfold Buf.preload
  rw [preload_eq]
  simp

theorem preload_le (s : Buf) (n : Nat) (h : s.buf.length ≤ n) (h2 : s.text.length ≤ n) : (s.preload n).buf = s.text := by
  unfold Buf.preload
  unfold Buf.text at h2
  rw [preload_eq]
  simp only [Buf.text, List.length_append] at h2 ⊢
  rw [List.take_of_length_le (by omega)]

/-- Calls: of the buffer, and of the `k`-th iterator. -/
inductive BOp where
  | iter (automark : Bool)
  | next (k : Nat)
  | peek (k : Nat)
  | has (k : Nat)
  | mark (k : Nat)
  | commit
  | commitAt (k : Nat)
  | count
  | any
deriving DecidableEq, Repr

inductive BEv where
  | unit
  | char (c : Nat)
  | bool (b : Bool)
  | num (n : Nat)
  | thrown
  | ub
deriving DecidableEq, Repr

/-- The model: buffer and iterators. -/
structure Sys where
  s : Buf
  its : List It
deriving DecidableEq, Repr

/-- One call; `none`: there is no such iterator. -/
def Sys.step (y : Sys) : BOp → Option (BEv × Sys)
  | .iter a => some (.unit, { y with its := y.its ++ [y.s.iter a] })
  | .next k => y.its[k]?.map fun i =>
    match itNext y.s i with
    | .ok (x, i, s) => (.char x, ⟨s, y.its.set k i⟩)
    | .thrown => (.thrown, y)
    | .ub => (.ub, y)
  | .peek k => y.its[k]?.map fun i =>
    match itPeek y.s i with
    | .ok (x, s) => (.char x, { y with s := s })
    | .thrown => (.thrown, { y with s := y.s.preload (absPos y.s i) })
    | .ub => (.ub, y)
  | .has k => y.its[k]?.map fun i => (.bool (itHas y.s i), y)
  | .mark k => y.its[k]?.map fun i => (.unit, { y with s := y.s.mark i })
  | .commit => some (.unit, { y with s := y.s.commit })
  | .commitAt k => y.its[k]?.map fun i => (.unit, { y with s := y.s.commitAt i })
  | .count => some (.num y.s.charCount, y)
  | .any => some (.bool y.s.hasItems, y)

def Sys.run : Sys → List BOp → Option (List BEv × Sys)
  | y, [] => some ([], y)
  | y, o :: os =>
    match y.step o with
    | none => none
    | some (e, y) => (y.run os).map fun p => (e :: p.1, p.2)

/-- The specification: a text; `c` characters of it are discarded, `m` is the mark; iterators are places in the text. -/
structure Sp where
  c : Nat := 0
  m : Nat := 0
  its : List It := []
deriving DecidableEq, Repr

/-- The place of an iterator: one that was left behind is moved to the first character which is not discarded. -/
def Sp.place (p : Sp) (i : It) : Nat := max i.pos p.c

def Sp.step (t : List Nat) (p : Sp) : BOp → Option (BEv × Sp)
  | .iter a => some (.unit, { p with its := p.its ++ [⟨p.c, a⟩] })
  | .next k => p.its[k]?.map fun i =>
    match t[p.place i]? with
    | some x => (.char x, { p with its := p.its.set k ⟨p.place i + 1, i.automark⟩, m := if i.automark then p.place i + 1 else p.m })
    | none => (.thrown, p)
  | .peek k => p.its[k]?.map fun i =>
    match t[p.place i]? with
    | some x => (.char x, p)
    | none => (.thrown, p)
  | .has k => p.its[k]?.map fun i => (.bool (decide (p.place i < t.length)), p)
  | .mark k => p.its[k]?.map fun i => (.unit, { p with m := p.place i })
  | .commit => some (.unit, { p with c := p.m })
  | .commitAt k => p.its[k]?.map fun i => (.unit, { p with m := p.place i, c := p.place i })
  | .count => some (.num p.c, p)
  | .any => some (.bool (decide (p.c < t.length)), p)

def Sp.run (t : List Nat) : Sp → List BOp → Option (List BEv × Sp)
  | p, [] => some ([], p)
  | p, o :: os =>
    match p.step t o with
    | none => none
    | some (e, p) => (p.run t os).map fun q => (e :: q.1, q.2)

/-- Calls the code gets right: `getNext` neither at the end of the text nor with an iterator left behind. -/
def Legal (t : List Nat) (p : Sp) : BOp → Prop
  | .next k => ∀ i, p.its[k]? = some i → p.c ≤ i.pos ∧ i.pos < t.length
  | _ => True

/-- The calls are legal one after another. -/
def LegalAll (t : List Nat) : Sp → List BOp → Prop
  | _, [] => True
  | p, o :: os => Legal t p o ∧ ∀ e p', p.step t o = some (e, p') → LegalAll t p' os

/-- The model and the specification are in the same state. -/
structure Sim (t : List Nat) (p : Sp) (y : Sys) : Prop where
  cc : y.s.cc = p.c
  txt : t.drop p.c = y.s.text
  le : p.c ≤ t.length
  mkp : p.m = y.s.cc + y.s.cp
  cp : y.s.cp ≤ y.s.buf.length
  its : y.its = p.its
  pos : ∀ i, i ∈ p.its → i.pos ≤ y.s.cc + y.s.buf.length

theorem Sim.place {t : List Nat} {p : Sp} {y : Sys} (h : Sim t p y) (i : It) : p.place i = y.s.cc + absPos y.s i := by
  unfold Sp.place absPos
  rw [h.cc]
  split <;> omega

theorem Sim.len {t : List Nat} {p : Sp} {y : Sys} (h : Sim t p y) : t.length = y.s.cc + y.s.text.length := by
  have := congrArg List.length h.txt
  rw [List.length_drop] at this
  have := h.le
  rw [h.cc]; omega

theorem Sim.at {t : List Nat} {p : Sp} {y : Sys} (h : Sim t p y) (n : Nat) : t[y.s.cc + n]? = y.s.text[n]? := by
  rw [← h.txt, List.getElem?_drop, h.cc]

theorem mem_set_pos {l : List It} {k : Nat} {i x : It} (h : x ∈ l.set k i) : x = i ∨ x ∈ l := by
  rcases List.mem_or_eq_of_mem_set h with h | h
  · exact .inr h
  · exact .inl h

theorem sim_preload {t : List Nat} {p : Sp} {y : Sys} (h : Sim t p y) (n : Nat) : Sim t p ⟨y.s.preload n, y.its⟩ where
  cc := h.cc
  txt := by rw [h.txt]; exact (preload_text y.s n).symm
  le := h.le
  mkp := h.mkp
  cp := Nat.le_trans h.cp (preload_ge y.s n)
  its := h.its
  pos := fun i hi => Nat.le_trans (h.pos i hi) (Nat.add_le_add_left (preload_ge y.s n) _)

theorem mark_eq {t : List Nat} {p : Sp} {y : Sys} (h : Sim t p y) (i : It) : y.s.mark i = { y.s with cp := absPos y.s i } := by
  unfold Buf.mark absPos
  split <;> rfl

theorem abs_le {t : List Nat} {p : Sp} {y : Sys} (h : Sim t p y) {i : It} (hi : i ∈ p.its) : absPos y.s i ≤ y.s.buf.length := by
  have := h.pos i hi
  unfold absPos
  split <;> omega

theorem sim_mark {t : List Nat} {p : Sp} {y : Sys} (h : Sim t p y) {i : It} (hi : i ∈ p.its) : Sim t { p with m := p.place i } { y with s := y.s.mark i } := by
  rw [mark_eq h]
  exact ⟨h.cc, h.txt, h.le, h.place i, abs_le h hi, h.its, h.pos⟩

theorem sim_commit {t : List Nat} {p : Sp} {y : Sys} (h : Sim t p y) : Sim t { p with c := p.m } { y with s := y.s.commit } where
  cc := by rw [h.mkp]; rfl
  txt := by
    have := h.cp
    show t.drop p.m = (y.s.buf.drop y.s.cp) ++ y.s.src
    rw [h.mkp, h.cc, ← List.drop_drop, h.txt, Buf.text, List.drop_append_of_le_length h.cp]
  le := by
    have := h.len
    have := h.cp
    show p.m ≤ t.length
    rw [h.mkp]
    rw [Buf.text, List.length_append] at *
    omega
  mkp := by rw [h.mkp]; rfl
  cp := Nat.zero_le _
  its := h.its
  pos := fun i hi => by
    have := h.pos i hi
    have := h.cp
    show i.pos ≤ y.s.cc + y.s.cp + (y.s.buf.drop y.s.cp).length
    rw [List.length_drop]; omega

theorem step_sim {t : List Nat} {p p' : Sp} {y : Sys} (h : Sim t p y) {o : BOp} (hl : Legal t p o) {e : BEv} (hp : p.step t o = some (e, p')) :
    ∃ y', y.step o = some (e, y') ∧ Sim t p' y' := by
  have hi := h.its
  cases o with
  | iter a =>
    simp only [Sp.step, Option.some.injEq, Prod.mk.injEq] at hp
    obtain ⟨rfl, rfl⟩ := hp
    refine ⟨_, rfl, h.cc, h.txt, h.le, h.mkp, h.cp, ?_, ?_⟩
    · simp only [Buf.iter, h.its, h.cc]
    · intro i hm
      rcases List.mem_append.mp hm with hm | hm
      · exact h.pos i hm
      · have : i = ⟨p.c, a⟩ := by simpa using hm
        subst this
        simp only [h.cc]; omega
  | next k =>
    simp only [Sp.step] at hp
    cases ek : p.its[k]? with
    | none => rw [ek] at hp; cases hp
    | some i =>
      have hm : i ∈ p.its := List.mem_of_getElem? ek
      obtain ⟨l1, l2⟩ := hl i ek
      rw [ek] at hp
      have hpl : p.place i = i.pos := by unfold Sp.place; omega
      have habs := h.place i
      rw [hpl] at habs
      have hlen := h.len
      have hin : absPos y.s i < y.s.text.length := by omega
      have hin2 := preload_len y.s _ hin
      obtain ⟨x, hx⟩ : ∃ x, t[i.pos]? = some x := ⟨t[i.pos], by rw [List.getElem?_eq_getElem l2]⟩
      simp only [Option.map_some, hpl, hx, Option.some.injEq, Prod.mk.injEq] at hp
      obtain ⟨rfl, rfl⟩ := hp
      have hx2 : (y.s.preload (absPos y.s i)).buf[absPos y.s i]? = some x := by
        have e1 := h.at (absPos y.s i)
        rw [← habs, hx, ← preload_text y.s (absPos y.s i), Buf.text, List.getElem?_append_left hin2] at e1
        exact e1.symm
      have hp2 := sim_preload h (absPos y.s i)
      refine ⟨⟨if i.automark then (y.s.preload (absPos y.s i)).mark ⟨i.pos + 1, i.automark⟩ else y.s.preload (absPos y.s i), y.its.set k ⟨i.pos + 1, i.automark⟩⟩, ?_, ?_⟩
      · simp only [Sys.step, hi, ek, Option.map_some, itNext]
        rw [if_neg (by omega : ¬ (y.s.preload (absPos y.s i)).buf.length < absPos y.s i)]
        have : (if i.automark = true then (y.s.preload (absPos y.s i)).mark ⟨i.pos + 1, i.automark⟩ else y.s.preload (absPos y.s i)).buf = (y.s.preload (absPos y.s i)).buf := by
          split
          · unfold Buf.mark; split <;> rfl
          · rfl
        rw [this, hx2]
      · -- first without the mark
        have s1 : Sim t { p with its := p.its.set k ⟨i.pos + 1, i.automark⟩ } ⟨y.s.preload (absPos y.s i), y.its.set k ⟨i.pos + 1, i.automark⟩⟩ := by
          refine ⟨hp2.cc, hp2.txt, hp2.le, hp2.mkp, hp2.cp, ?_, ?_⟩
          · simp only [h.its]
          · intro j hj
            rcases mem_set_pos hj with rfl | hj
            · have : (y.s.preload (absPos y.s i)).cc = y.s.cc := rfl
              simp only [this]; omega
            · exact hp2.pos j hj
        cases ha : i.automark with
        | false =>
          rw [ha] at s1
          simpa using s1
        | true =>
          rw [ha] at s1
          have hmem : (⟨i.pos + 1, true⟩ : It) ∈ p.its.set k ⟨i.pos + 1, true⟩ := by
            have hk : k < p.its.length := (List.getElem?_eq_some_iff.mp ek).1
            exact List.mem_iff_getElem.mpr ⟨k, by simpa using hk, by simp⟩
          have s2 := sim_mark s1 hmem
          have e : Sp.place { p with its := p.its.set k ⟨i.pos + 1, true⟩ } ⟨i.pos + 1, true⟩ = i.pos + 1 := by
            unfold Sp.place; simp only; omega
          rw [e] at s2
          simpa using s2
  | peek k =>
    simp only [Sp.step] at hp
    cases ek : p.its[k]? with
    | none => rw [ek] at hp; cases hp
    | some i =>
      have hm : i ∈ p.its := List.mem_of_getElem? ek
      rw [ek] at hp
      have habs := h.place i
      have hlen := h.len
      have hat := h.at (absPos y.s i)
      rw [← habs] at hat
      have hp2 := sim_preload h (absPos y.s i)
      by_cases hin : absPos y.s i < y.s.text.length
      · have hin2 := preload_len y.s _ hin
        obtain ⟨x, hx⟩ : ∃ x, t[p.place i]? = some x := ⟨t[p.place i]'(by omega), by rw [List.getElem?_eq_getElem]⟩
        simp only [Option.map_some, hx, Option.some.injEq, Prod.mk.injEq] at hp
        obtain ⟨rfl, rfl⟩ := hp
        have hx2 : (y.s.preload (absPos y.s i)).buf[absPos y.s i]? = some x := by
          rw [hx, ← preload_text y.s (absPos y.s i), Buf.text, List.getElem?_append_left hin2] at hat
          exact hat.symm
        refine ⟨⟨y.s.preload (absPos y.s i), y.its⟩, ?_, hp2⟩
        simp only [Sys.step, hi, ek, Option.map_some, itPeek]
        rw [if_neg (by omega : ¬ (y.s.preload (absPos y.s i)).buf.length ≤ absPos y.s i), hx2]
      · have hx : t[p.place i]? = none := List.getElem?_eq_none (by omega)
        simp only [Option.map_some, hx, Option.some.injEq, Prod.mk.injEq] at hp
        obtain ⟨rfl, rfl⟩ := hp
        refine ⟨⟨y.s.preload (absPos y.s i), y.its⟩, ?_, hp2⟩
        have : (y.s.preload (absPos y.s i)).buf.length ≤ absPos y.s i := by
          have e1 := preload_text y.s (absPos y.s i)
          have e2 := congrArg List.length e1
          rw [Buf.text, List.length_append] at e2
          omega
        simp only [Sys.step, hi, ek, Option.map_some, itPeek]
        rw [if_pos this]
  | has k =>
    simp only [Sp.step] at hp
    cases ek : p.its[k]? with
    | none => rw [ek] at hp; cases hp
    | some i =>
      have hm : i ∈ p.its := List.mem_of_getElem? ek
      rw [ek] at hp
      simp only [Option.map_some, Option.some.injEq, Prod.mk.injEq] at hp
      obtain ⟨rfl, rfl⟩ := hp
      refine ⟨y, ?_, h⟩
      simp only [Sys.step, hi, ek, Option.map_some, Option.some.injEq, Prod.mk.injEq, BEv.bool.injEq, and_true]
      have habs := h.place i
      have hlen := h.len
      have hle := abs_le h hm
      rw [Buf.text, List.length_append] at hlen
      unfold itHas
      rw [habs, hlen]
      by_cases e1 : y.s.buf.length > absPos y.s i
      · simp only [e1, if_true]
        exact (decide_eq_true (by omega)).symm
      · have e2 : y.s.buf.length = absPos y.s i := by omega
        simp only [e1, if_false, e2, if_true]
        cases es : y.s.src with
        | nil => simp
        | cons a l => simp
  | mark k =>
    simp only [Sp.step] at hp
    cases ek : p.its[k]? with
    | none => rw [ek] at hp; cases hp
    | some i =>
      rw [ek] at hp
      simp only [Option.map_some, Option.some.injEq, Prod.mk.injEq] at hp
      obtain ⟨rfl, rfl⟩ := hp
      refine ⟨_, ?_, sim_mark h (List.mem_of_getElem? ek)⟩
      simp only [Sys.step, hi, ek, Option.map_some]
  | commit =>
    simp only [Sp.step, Option.some.injEq, Prod.mk.injEq] at hp
    obtain ⟨rfl, rfl⟩ := hp
    exact ⟨_, rfl, sim_commit h⟩
  | commitAt k =>
    simp only [Sp.step] at hp
    cases ek : p.its[k]? with
    | none => rw [ek] at hp; cases hp
    | some i =>
      rw [ek] at hp
      simp only [Option.map_some, Option.some.injEq, Prod.mk.injEq] at hp
      obtain ⟨rfl, rfl⟩ := hp
      refine ⟨_, ?_, sim_commit (sim_mark h (List.mem_of_getElem? ek))⟩
      simp only [Sys.step, hi, ek, Option.map_some, Buf.commitAt]
  | count =>
    simp only [Sp.step, Option.some.injEq, Prod.mk.injEq] at hp
    obtain ⟨rfl, rfl⟩ := hp
    exact ⟨y, by simp only [Sys.step, Buf.charCount, h.cc], h⟩
  | any =>
    simp only [Sp.step, Option.some.injEq, Prod.mk.injEq] at hp
    obtain ⟨rfl, rfl⟩ := hp
    refine ⟨y, ?_, h⟩
    simp only [Sys.step, Option.some.injEq, Prod.mk.injEq, BEv.bool.injEq, and_true]
    have hlen := h.len
    rw [h.cc, Buf.text] at hlen
    unfold Buf.hasItems
    rw [hlen]
    cases y.s.buf <;> cases y.s.src <;> simp

theorem run_sim {t : List Nat} : ∀ (os : List BOp) {p p' : Sp} {y : Sys} {es : List BEv}, Sim t p y → LegalAll t p os → p.run t os = some (es, p') →
    ∃ y', y.run os = some (es, y') ∧ Sim t p' y'
  | [], p, p', y, es, h, _, hp => by
    simp only [Sp.run, Option.some.injEq, Prod.mk.injEq] at hp
    obtain ⟨rfl, rfl⟩ := hp
    exact ⟨y, rfl, h⟩
  | o :: os, p, p', y, es, h, hl, hp => by
    rw [Sp.run] at hp
    cases e : p.step t o with
    | none => rw [e] at hp; cases hp
    | some q =>
      obtain ⟨ev, p1⟩ := q
      rw [e] at hp
      cases e2 : p1.run t os with
      | none => simp only [e2] at hp; cases hp
      | some q2 =>
        simp only [e2, Option.map_some, Option.some.injEq, Prod.mk.injEq] at hp
        obtain ⟨rfl, rfl⟩ := hp
        obtain ⟨y1, f1, s1⟩ := step_sim h hl.1 e
        obtain ⟨y2, f2, s2⟩ := run_sim os s1 (hl.2 _ _ e) e2
        refine ⟨y2, ?_, s2⟩
        rw [Sys.run, f1]
        simp only [f2, Option.map_some]

/-- C113: any number of iterators, marks and commits in any order give what the places in the text give.  Missing: `getNext` at the end of the text and `getNext` of an iterator left behind by a
commit (violated below). -/
theorem C113_partial {t : List Nat} {os : List BOp} {es : List BEv} {p : Sp} (hl : LegalAll t {} os) (hp : Sp.run t {} os = some (es, p)) :
    ∃ y, Sys.run ⟨⟨[], t, 0, 0⟩, []⟩ os = some (es, y) := by
  obtain ⟨y, h, _⟩ := run_sim os (y := ⟨⟨[], t, 0, 0⟩, []⟩) ⟨rfl, rfl, Nat.zero_le _, rfl, Nat.zero_le _, rfl, by simp⟩ hl hp
  exact ⟨y, h⟩

/-- C113 as stated: without the restriction. -/
def Claim113 : Prop := ∀ (t : List Nat) (os : List BOp) (es : List BEv) (p : Sp), Sp.run t {} os = some (es, p) →
  ∃ y, Sys.run ⟨⟨[], t, 0, 0⟩, []⟩ os = some (es, y)

/-- `getNext` behind the last character reads outside of the buffer instead of throwing (textInBuffer.tcc:60: `<` where `peek` has `<=`). -/
theorem C113_end_violated : Sp.run [97] {} [.iter false, .next 0, .next 0] = some ([.unit, .char 97, .thrown], ⟨0, 0, [⟨1, false⟩]⟩) ∧
    (Sys.run ⟨⟨[], [97], 0, 0⟩, []⟩ [.iter false, .next 0, .next 0]).map Prod.fst = some [.unit, .char 97, .ub] := by decide

/-- An iterator left behind by a commit reads the first character again and again. -/
theorem C113_stale_violated : (Sp.run [97, 98, 99, 100] {} [.iter false, .iter true, .next 1, .next 1, .commit, .next 0, .next 0]).map Prod.fst =
      some [.unit, .unit, .char 97, .char 98, .unit, .char 99, .char 100] ∧
    (Sys.run ⟨⟨[], [97, 98, 99, 100], 0, 0⟩, []⟩ [.iter false, .iter true, .next 1, .next 1, .commit, .next 0, .next 0]).map Prod.fst =
      some [.unit, .unit, .char 97, .char 98, .unit, .char 99, .char 99] := by decide

theorem C113_violated : ¬ Claim113 := by
  intro h
  obtain ⟨y, hy⟩ := h _ _ _ _ C113_end_violated.1
  have := C113_end_violated.2
  rw [hy] at this
  exact absurd this (by simp)

/-- Concrete case of `C113_partial`. -/
example : (Sys.run ⟨⟨[], [97, 98, 99, 100], 0, 0⟩, []⟩ [.iter true, .next 0, .next 0, .peek 0, .commit, .iter false, .next 1, .next 1, .has 1, .has 0, .next 0, .count]).map Prod.fst =
    some [.unit, .char 97, .char 98, .char 99, .unit, .unit, .char 99, .char 100, .bool false, .bool true, .char 99, .num 2] := by decide

/-! ## C112 -/

theorem hasItems_iff {s : Buf} {i : It} (h : absPos s i ≤ s.buf.length) : itHas s i = decide (absPos s i < s.text.length) := by
  unfold itHas Buf.text
  by_cases e1 : s.buf.length > absPos s i
  · simp only [e1, if_true]
    exact (decide_eq_true (by rw [List.length_append]; omega)).symm
  · have e2 : s.buf.length = absPos s i := by omega
    simp only [e1, if_false, e2, if_true]
    cases es : s.src with
    | nil => simp [e2]
    | cons a l => simp [e2]

/-- One reading of an automatic iterator in front of the character `x`. -/
theorem next_ok {s : Buf} {i : It} (ha : i.automark = true) (hp : s.cc ≤ i.pos) (hb : i.pos ≤ s.cc + s.buf.length) {x : Nat} {r : List Nat} (ht : s.text.drop (i.pos - s.cc) = x :: r) :
    itHas s i = true ∧ ∃ s', itNext s i = .ok (x, ⟨i.pos + 1, true⟩, s') ∧ s'.text = s.text ∧ s'.cc = s.cc ∧ i.pos + 1 ≤ s.cc + s'.buf.length ∧
      s'.cp = i.pos + 1 - s.cc := by
  have habs : absPos s i = i.pos - s.cc := by unfold absPos; rw [if_neg (by omega : ¬ i.pos < s.cc)]
  have hin : i.pos - s.cc < s.text.length := by
    have := congrArg List.length ht
    simp only [List.length_drop, List.length_cons] at this
    omega
  have hx : s.text[i.pos - s.cc]? = some x := by
    have := congrArg (fun l : List Nat => l[0]?) ht
    simpa [List.getElem?_drop] using this
  refine ⟨by rw [hasItems_iff (by omega), habs]; exact decide_eq_true hin, ?_⟩
  have hin2 := preload_len s _ hin
  refine ⟨(s.preload (i.pos - s.cc)).mark ⟨i.pos + 1, true⟩, ?_, ?_, ?_, ?_, ?_⟩
  · unfold itNext
    simp only [habs, ha, if_true]
    rw [if_neg (by omega : ¬ (s.preload (i.pos - s.cc)).buf.length < i.pos - s.cc)]
    have e : ((s.preload (i.pos - s.cc)).mark ⟨i.pos + 1, true⟩).buf = (s.preload (i.pos - s.cc)).buf := by
      unfold Buf.mark; split <;> rfl
    rw [e]
    have : (s.preload (i.pos - s.cc)).buf[i.pos - s.cc]? = some x := by
      rw [← preload_text s (i.pos - s.cc), Buf.text, List.getElem?_append_left hin2] at hx
      exact hx
    rw [this]
  · rw [← preload_text s (i.pos - s.cc)]
    unfold Buf.mark Buf.text; split <;> rfl
  · unfold Buf.mark; split <;> rfl
  · have e : ((s.preload (i.pos - s.cc)).mark ⟨i.pos + 1, true⟩).buf = (s.preload (i.pos - s.cc)).buf := by
      unfold Buf.mark; split <;> rfl
    rw [e]; omega
  · have : (s.preload (i.pos - s.cc)).cc = s.cc := rfl
    unfold Buf.mark
    rw [this, if_neg (by simp only; omega)]

/-- The loop on the text that is left: line, what follows. -/
def scan (nl : List Nat) : List Nat → List Nat → Nat → Option (List Nat × List Nat)
  | [], data, _ => some (data, [])
  | x :: r, data, nlpos =>
    match nl[nlpos]? with
    | none => none
    | some c =>
      if c = x then
        if nlpos + 1 = nl.length then some (data, r) else scan nl r data (nlpos + 1)
      else if nlpos > 0 then scan nl r (data ++ nl.take nlpos ++ [x]) 0
      else scan nl r (data ++ [x]) nlpos

theorem loop_scan {nl : List Nat} : ∀ (t : List Nat) (f : Nat) (s : Buf) (i : It) (data : List Nat) (nlpos : Nat) (has : Bool) {l r : List Nat},
    t.length < f → i.automark = true → s.cc ≤ i.pos → i.pos ≤ s.cc + s.buf.length → s.text.drop (i.pos - s.cc) = t → (i.pos ≠ s.cc → s.cp = i.pos - s.cc) → (has = true ↔ i.pos ≠ s.cc) →
    (i.pos = s.cc → s.text = [] → s.cp = 0) → scan nl t data nlpos = some (l, r) →
    ∃ h s', lineLoop nl f s i data nlpos has = .ok (h, l, s') ∧ (h = true ↔ s.text ≠ []) ∧ s'.commit.text = r ∧ s'.cc = s.cc ∧ s'.cp ≤ s'.buf.length
  | t, 0, s, i, data, nlpos, has, l, r, hf, _, _, _, _, _, _, _, _ => by omega
  | [], f + 1, s, i, data, nlpos, has, l, r, hf, ha, hp, hb, ht, hm, hh, hz, hsc => by
    simp only [scan, Option.some.injEq, Prod.mk.injEq] at hsc
    obtain ⟨rfl, rfl⟩ := hsc
    have habs : absPos s i = i.pos - s.cc := by unfold absPos; rw [if_neg (by omega : ¬ i.pos < s.cc)]
    have hlen : s.text.length ≤ i.pos - s.cc := by
      have := congrArg List.length ht
      simp only [List.length_drop, List.length_nil] at this
      omega
    have hbt : s.buf.length ≤ s.text.length := by rw [Buf.text, List.length_append]; omega
    have hlen2 : s.text.length = i.pos - s.cc := by omega
    refine ⟨has, s, ?_, ?_, ?_, rfl, ?_⟩
    · rw [lineLoop, hasItems_iff (by omega), habs]
      rw [if_neg (by simp only [decide_eq_true_eq]; omega)]
    · rw [hh]
      constructor
      · intro h1 h2
        rw [h2] at hlen2
        simp at hlen2
        omega
      · intro h1 h2
        have := List.length_pos_iff.mpr h1
        omega
    · unfold Buf.commit Buf.text
      by_cases e : i.pos = s.cc
      · have : s.text = [] := List.length_eq_zero_iff.mp (by omega)
        rw [Buf.text, List.append_eq_nil_iff] at this
        simp [this.1, this.2]
      · rw [hm e]
        have e1 : s.buf.length = i.pos - s.cc := by omega
        rw [← e1, List.drop_length, List.nil_append]
        rw [Buf.text, List.length_append] at hlen2
        have e2 : s.src.length = 0 := by omega
        exact List.length_eq_zero_iff.mp e2
    · by_cases e : i.pos = s.cc
      · have : s.text = [] := List.length_eq_zero_iff.mp (by omega)
        rw [hz e this]; omega
      · rw [hm e]; omega
  | x :: t, f + 1, s, i, data, nlpos, has, l, r, hf, ha, hp, hb, ht, hm, hh, hz, hsc => by
    obtain ⟨h1, s1, h2, h3, h4, h5, h6⟩ := next_ok ha hp hb ht
    have hne : s.text ≠ [] := by
      intro h; rw [h] at ht; simp at ht
    rw [lineLoop, if_pos h1, h2]
    simp only
    rw [scan] at hsc
    cases ec : nl[nlpos]? with
    | none => rw [ec] at hsc; cases hsc
    | some c =>
      rw [ec] at hsc
      simp only at hsc ⊢
      have ht1 : s1.text.drop (i.pos + 1 - s1.cc) = t := by
        rw [h3, h4, show i.pos + 1 - s.cc = (i.pos - s.cc) + 1 by omega, ← List.drop_drop, ht]
        rfl
      have again : ∀ (d : List Nat) (n : Nat), scan nl t d n = some (l, r) →
          ∃ h s', lineLoop nl f s1 ⟨i.pos + 1, true⟩ d n true = .ok (h, l, s') ∧ (h = true ↔ s.text ≠ []) ∧ s'.commit.text = r ∧ s'.cc = s.cc ∧ s'.cp ≤ s'.buf.length := by
        intro d n hd
        have hq := loop_scan (nl := nl) t f s1 ⟨i.pos + 1, true⟩ d n true (l := l) (r := r) (by simp only [List.length_cons] at hf; omega) rfl (by rw [h4]; show s.cc ≤ i.pos + 1; omega)
          (by rw [h4]; exact h5) ht1 (fun _ => by rw [h6, h4]) (by rw [h4]; simp only [ne_eq, true_iff]; omega) (by rw [h4]; intro h; simp only at h; omega) hd
        rw [h3, h4] at hq
        exact hq
      by_cases e : c = x
      · rw [if_pos e] at hsc ⊢
        by_cases e2 : nlpos + 1 = nl.length
        · rw [if_pos e2] at hsc ⊢
          simp only [Option.some.injEq, Prod.mk.injEq] at hsc
          obtain ⟨rfl, rfl⟩ := hsc
          refine ⟨true, s1, rfl, by simp [hne], ?_, h4, by rw [h6]; omega⟩
          rw [← ht1]
          unfold Buf.commit
          simp only [Buf.text]
          rw [h6, h4, List.drop_append_of_le_length (by omega)]
        · rw [if_neg e2] at hsc ⊢
          exact again _ _ hsc
      · rw [if_neg e] at hsc ⊢
        by_cases e3 : nlpos > 0
        · rw [if_pos e3] at hsc ⊢
          exact again _ _ hsc
        · rw [if_neg e3] at hsc ⊢
          exact again _ _ hsc

/-- Every separator that begins in the text is complete. -/
def Clean (nl t : List Nat) : Prop := ∀ (a b : List Nat) (c : Nat), nl.head? = some c → t = a ++ c :: b → ∃ b', b = nl.tail ++ b'

theorem scan_match {nl : List Nat} : ∀ (q p r data : List Nat), nl = p ++ q → q ≠ [] → scan nl (q ++ r) data p.length = some (data, r)
  | [], _, _, _, _, h => absurd rfl h
  | x :: q, p, r, data, h, _ => by
    have e : nl[p.length]? = some x := by rw [h]; simp
    simp only [List.cons_append, scan, e, if_true]
    cases q with
    | nil =>
      have : p.length + 1 = nl.length := by rw [h]; simp
      simp [this]
    | cons y q =>
      have : ¬ p.length + 1 = nl.length := by rw [h]; simp
      rw [if_neg this]
      have := scan_match (nl := nl) (y :: q) (p ++ [x]) r data (by rw [h]; simp) (by simp)
      simpa using this

theorem scan_clean {c : Nat} {nl' : List Nat} : ∀ (t d : List Nat), c ∉ d → Clean (c :: nl') t →
    ∃ l r, scan (c :: nl') t d 0 = some (l, r) ∧ Line (c :: nl') (d ++ t) l r ∧ Clean (c :: nl') r
  | [], d, hd, _ => by
    refine ⟨d, [], rfl, ?_, ?_⟩
    · rw [List.append_nil]
      refine .last fun n ⟨a, b, h, _⟩ => hd ?_
      rw [h]; simp
    · intro a b c' _ h
      have := congrArg List.length h
      simp at this
  | x :: t, d, hd, hc => by
    by_cases e : c = x
    · subst e
      obtain ⟨b', hb⟩ := hc [] t c rfl rfl
      simp only [List.tail_cons] at hb
      refine ⟨d, b', ?_, ?_, ?_⟩
      · have := scan_match (nl := c :: nl') (c :: nl') [] b' d rfl (by simp)
        rw [hb]
        simpa using this
      · have : d ++ c :: t = d ++ (c :: nl') ++ b' := by rw [hb]; simp
        rw [this]
        refine .sep fun n ⟨a, b, h, h2⟩ => ?_
        apply Classical.byContradiction
        intro hn
        have : d[n]? = some c := by
          have e1 := congrArg (fun l : List Nat => l[n]?) h
          rw [List.append_assoc, List.getElem?_append_left (by omega)] at e1
          rw [e1, List.append_assoc, ← h2]
          simp
        exact hd (List.mem_of_getElem? this)
      · intro a b c' h1 h2
        refine hc (c :: nl' ++ a) b c' h1 ?_
        rw [hb, h2]; simp
    · obtain ⟨l, r, h1, h2, h3⟩ := scan_clean (c := c) (nl' := nl') t (d ++ [x]) (by simp [hd, e]) (by
        intro a b c' h1 h2
        exact hc (x :: a) b c' h1 (by rw [h2]; rfl))
      refine ⟨l, r, ?_, by rw [show d ++ x :: t = (d ++ [x]) ++ t by simp]; exact h2, h3⟩
      simp only [scan, List.getElem?_cons_zero, e, if_false, gt_iff_lt, Nat.lt_irrefl]
      exact h1

/-- C112: where a separator that begins in the text is always complete, and in particular for a separator of one character (the default of Linux), `readLine` gives the first line and leaves
what follows.  Missing: beginnings of a separator which do not continue (violated below). -/
theorem C112_partial {c : Nat} {nl' : List Nat} {s : Buf} (hcp : s.cp ≤ s.buf.length) (hc : Clean (c :: nl') s.text) :
    ∃ h l s', readLine (c :: nl') s = .ok (h, l, s') ∧ (h = true ↔ s.text ≠ []) ∧ Line (c :: nl') s.text l s'.text ∧ Clean (c :: nl') s'.text ∧ s'.cp ≤ s'.buf.length := by
  obtain ⟨l, r, h1, h2, h3⟩ := scan_clean s.text [] (by simp) hc
  obtain ⟨h, s', h4, h5, h6, h7, h8⟩ := loop_scan (nl := c :: nl') s.text (s.buf.length + s.src.length + 1) s (s.iter true) [] 0 false (l := l) (r := r)
    (by rw [Buf.text, List.length_append]; omega) rfl (Nat.le_refl _) (Nat.le_add_right _ _) (by simp [Buf.iter]) (fun h => absurd rfl h) (by simp [Buf.iter]) (fun _ h => by
      rw [Buf.text, List.append_eq_nil_iff] at h
      rw [h.1] at hcp
      simpa using hcp) h1
  refine ⟨h, l, s'.commit, ?_, h5, ?_, ?_, Nat.zero_le _⟩
  · unfold readLine peekLine
    rw [h4]
  · rw [h6]; exact h2
  · rw [h6]; exact h3

/-- C112, one character: no restriction of the text. -/
theorem C112_char {c : Nat} {s : Buf} (hcp : s.cp ≤ s.buf.length) :
    ∃ h l s', readLine [c] s = .ok (h, l, s') ∧ (h = true ↔ s.text ≠ []) ∧ Line [c] s.text l s'.text ∧ s'.cp ≤ s'.buf.length := by
  obtain ⟨h, l, s', h1, h2, h3, _, h4⟩ := C112_partial (c := c) (nl' := []) hcp (fun a b c' h1 _ => ⟨b, rfl⟩)
  exact ⟨h, l, s', h1, h2, h3, h4⟩

/-- C112: all lines of a text, one after another. -/
theorem C112_lines_partial {c : Nat} {nl' : List Nat} : ∀ (n : Nat) (s : Buf), s.text.length ≤ n → s.cp ≤ s.buf.length → Clean (c :: nl') s.text →
    ∃ ls, Lines (c :: nl') s.text ls ∧ ∃ ss : Nat → Buf, ss 0 = s ∧ (ss ls.length).text = [] ∧
      ∀ k, (h : k < ls.length) → readLine (c :: nl') (ss k) = .ok (true, ls[k], ss (k + 1))
  | n, s, hn, hcp, hc => by
    by_cases e : s.text = []
    · exact ⟨[], by rw [e]; exact .nil, fun _ => s, rfl, e, fun k h => absurd h (by simp)⟩
    · cases n with
      | zero => exact absurd (List.length_eq_zero_iff.mp (by omega)) e
      | succ n =>
        obtain ⟨h, l, s', h1, h2, h3, h4, h5⟩ := C112_partial hcp hc
        have hsh := line_shorter (by simp) e h3
        obtain ⟨ls, k1, ss, k2, k3, k4⟩ := C112_lines_partial n s' (by omega) h5 h4
        refine ⟨l :: ls, .cons e h3 k1, fun k => match k with | 0 => s | k + 1 => ss k, rfl, by simpa using k3, ?_⟩
        intro k hk
        match k with
        | 0 =>
          have : h = true := h2.mpr e
          subst this
          simp only [List.getElem_cons_zero, k2]
          exact h1
        | k + 1 =>
          simp only [List.length_cons] at hk
          exact k4 k (by omega)

/-- C112 as stated. -/
def Claim112 : Prop := ∀ (nl t : List Nat), nl ≠ [] → t ≠ [] → ∃ l s', readLine nl ⟨[], t, 0, 0⟩ = .ok (true, l, s') ∧ Line nl t l s'.text

/-- Two CR in front of LF: the end of the line is missed (textIn.h:158-162). -/
theorem C112_missed_violated : readLine [13, 10] ⟨[], [97, 13, 13, 10, 98], 0, 0⟩ = .ok (true, [97, 13, 13, 10, 98], ⟨[], [], 5, 0⟩) ∧
    Line [13, 10] [97, 13, 13, 10, 98] [97, 13] [98] := by
  refine ⟨by decide, ?_⟩
  refine Line.sep (nl := [13, 10]) (l := [97, 13]) (r := [98]) fun n ⟨a, b, h, h2⟩ => ?_
  simp only [List.cons_append, List.nil_append] at h
  match a, h2 with
  | [], _ => simp at h
  | [x], _ => simp at h
  | _ :: _ :: _, h2 => simp at h2 ⊢; omega

/-- A CR at the end of the text is lost. -/
theorem C112_lost_violated : readLine [13, 10] ⟨[], [97, 13], 0, 0⟩ = .ok (true, [97], ⟨[], [], 2, 0⟩) ∧ Line [13, 10] [97, 13] [97, 13] [] := by
  refine ⟨by decide, .last fun n ⟨a, b, h, _⟩ => ?_⟩
  match a with
  | [] => simp at h
  | [x] => simp at h
  | x :: y :: _ => simp at h

theorem C112_violated : ¬ Claim112 := by
  intro h
  obtain ⟨l, s', h1, h2⟩ := h [13, 10] [97, 13] (by simp) (by simp)
  rw [C112_lost_violated.1] at h1
  cases h1
  have := (h2.det C112_lost_violated.2).1
  cases this

/-- Concrete case: two lines with CR LF. -/
example : readLine [13, 10] ⟨[], [97, 98, 13, 10, 99], 0, 0⟩ = .ok (true, [97, 98], ⟨[], [99], 4, 0⟩) := by decide

/-- C113: `TextIn::getNext` gives the next character and takes it from the input.  Missing: the end of the input (violated below). -/
theorem C113_getNext_partial {s : Buf} {x : Nat} {r : List Nat} (ht : s.text = x :: r) : ∃ s', getNext s = .ok (x, s') ∧ s'.text = r ∧ s'.cc = s.cc + 1 ∧ s'.cp = 0 := by
  have h0 : (s.iter true).pos - s.cc = 0 := Nat.sub_self _
  obtain ⟨_, s1, h1, h2, h3, h4, h5⟩ := next_ok (s := s) (i := s.iter true) rfl (Nat.le_refl _) (Nat.le_add_right _ _) (by rw [h0]; exact ht)
  have hpos : (s.iter true).pos = s.cc := rfl
  rw [hpos] at h4 h5
  have hcp : s1.cp = 1 := by omega
  refine ⟨s1.commit, by unfold getNext; rw [h1], ?_, ?_, rfl⟩
  · have e : s1.commit.text = s1.text.drop 1 := by
      unfold Buf.commit Buf.text
      rw [hcp]
      exact (List.drop_append_of_le_length (by omega)).symm
    rw [e, h2, ht]; rfl
  · unfold Buf.commit
    rw [hcp, h3]

/-- At the end of the input `TextIn::getNext` reads outside of the buffer. -/
theorem C113_getNext_violated (cc cp : Nat) : getNext ⟨[], [], cc, cp⟩ = .ub := by
  unfold getNext itNext absPos
  have : ¬ cc + 1 < cc := by omega
  simp [Buf.iter, Buf.preload, preloadLoop, Buf.mark, this]

/-- Concrete case. -/
example : getNext ⟨[98], [99], 4, 0⟩ = .ok (98, ⟨[], [99], 5, 0⟩) := by decide

end LS.TextIn

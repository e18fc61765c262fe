import Verif.Placeholder
import Verif.FilterIterProps
/-!
# Properties of `PlaceholderFilter` (C131)
-/

namespace LS.Placeholder

open LS.FilterIter

namespace Spec

/-- A piece of a template: a character, a character behind `$`, or a variable. -/
inductive Piece where
  | plain (c : Nat)
  | quoted (c : Nat)
  | var (name : List Nat)
deriving DecidableEq, Repr

/-- What may stand in a piece. -/
def Good : Piece → Prop
  | .plain c => c ≠ 36
  | .quoted c => c ≠ 123
  | .var name => 125 ∉ name

/-- The text of a piece. -/
def text : Piece → List Nat
  | .plain c => [c]
  | .quoted c => [36, c]
  | .var name => [36, 123] ++ name ++ [125]

/-- What is put in its place. -/
def value (val : List Nat → List Nat) : Piece → List Nat
  | .plain c => [c]
  | .quoted c => [c]
  | .var name => val name

end Spec

/-- Where in the template the reader is. -/
inductive Where where
  | out
  | dollar
  | name (l : List Nat)
deriving DecidableEq, Repr

/-- The machine of the filter. -/
def machine (val : List Nat → List Nat) : FilterIter.Spec.Machine Where Nat Nat where
  emit := fun q x => match q with
    | .out => if x = 36 then (.dollar, []) else (.out, [x])
    | .dollar => if x = 123 then (.name [], []) else (.out, [x])
    | .name l => if x = 125 then (.out, val l) else (.name (l ++ [x]), [])
  fin := fun q => (q, [])

/-- The filter works as the machine. -/
def works (t : Table) : Works (filter t) (machine (getValue t)) where
  inv := fun p => (p.state = .blockin → p.outText ≠ []) ∧ (p.state ≠ .readVar → p.varSpace = [])
  q := fun p => match p.state with
    | .beginVar => .dollar
    | .readVar => .name p.varSpace
    | _ => .out
  pend := fun p => match p.state with
    | .charin => [p.chrout]
    | .blockin => p.outText
    | _ => []
  closed := fun _ => False
  shut := fun _ _ c => c.elim
  has := by
    intro p hi
    obtain ⟨st, c, v, o⟩ := p
    cases st <;> simp [filter, hasOut]
    exact hi.1 rfl
  need := by
    intro p hi e _
    obtain ⟨st, c, v, o⟩ := p
    cases st with
    | charin => cases e
    | blockin => exact absurd e (hi.1 rfl)
    | empty => rfl
    | beginVar => rfl
    | readVar => rfl
  out := by
    intro p b bs hi e
    obtain ⟨st, c, v, o⟩ := p
    cases st with
    | charin =>
      injection e with e1 e2
      subst e1
      subst e2
      exact ⟨⟨.empty, c, v, o⟩, rfl, ⟨fun c => (by cases c), fun _ => hi.2 (fun c => by cases c)⟩, rfl, rfl⟩
    | blockin =>
      have e : o = b :: bs := e
      subst e
      have hv : v = [] := hi.2 (fun c => by cases c)
      subst hv
      cases bs with
      | nil => exact ⟨⟨.empty, c, [], []⟩, rfl, ⟨fun c => (by cases c), fun _ => rfl⟩, rfl, rfl⟩
      | cons y ys => exact ⟨⟨.blockin, c, [], y :: ys⟩, rfl, ⟨fun _ => List.cons_ne_nil _ _, fun _ => rfl⟩, rfl, rfl⟩
    | empty => cases e
    | beginVar => cases e
    | readVar => cases e
  inp := by
    intro p x hi e
    obtain ⟨st, c, v, o⟩ := p
    cases st with
    | charin => cases e
    | blockin => cases e
    | empty =>
      have hv : v = [] := hi.2 (fun c => by cases c)
      subst hv
      by_cases hx : x = 36
      · subst hx
        exact ⟨⟨.beginVar, c, [], o⟩, rfl, ⟨fun c => (by cases c), fun _ => rfl⟩, rfl, rfl⟩
      · refine ⟨⟨.charin, x, [], o⟩, ?_, ⟨fun c => (by cases c), fun _ => rfl⟩, ?_, ?_⟩
        · simp only [filter, input, if_neg hx]
        · simp only [machine, if_neg hx]
        · simp only [machine, if_neg hx, List.nil_append]
    | beginVar =>
      have hv : v = [] := hi.2 (fun c => by cases c)
      subst hv
      by_cases hx : x = 123
      · subst hx
        exact ⟨⟨.readVar, c, [], o⟩, rfl, ⟨fun c => (by cases c), fun _ => rfl⟩, rfl, rfl⟩
      · refine ⟨⟨.charin, x, [], o⟩, ?_, ⟨fun c => (by cases c), fun _ => rfl⟩, ?_, ?_⟩
        · simp only [filter, input, if_neg hx]
        · simp only [machine, if_neg hx]
        · simp only [machine, if_neg hx, List.nil_append]
    | readVar =>
      by_cases hx : x = 125
      · subst hx
        by_cases hv : getValue t v = []
        · refine ⟨⟨.empty, c, [], []⟩, ?_, ⟨fun c => (by cases c), fun _ => rfl⟩, ?_, ?_⟩
          · simp only [filter, input, if_true, hv]
          · simp only [machine, if_true]
          · simp only [machine, if_true, hv, List.append_nil]
        · refine ⟨⟨.blockin, c, [], getValue t v⟩, ?_, ⟨fun _ => hv, fun _ => rfl⟩, ?_, ?_⟩
          · simp only [filter, input, if_true, if_neg hv]
          · simp only [machine, if_true]
          · simp only [machine, if_true, List.nil_append]
      · refine ⟨⟨.readVar, c, v ++ [x], o⟩, ?_, ⟨fun c => (by cases c), fun c => absurd rfl c⟩, ?_, ?_⟩
        · simp only [filter, input, if_neg hx]
        · simp only [machine, if_neg hx]
        · simp only [machine, if_neg hx, List.append_nil]
  flush := by
    intro p hi _
    exact ⟨hi, rfl, (List.append_nil _).symm⟩
  fin := fun _ => rfl

theorem name_run (val : List Nat → List Nat) (name acc : List Nat) (h : 125 ∉ name) :
    FilterIter.Spec.state (machine val) (.name acc) name = .name (acc ++ name) ∧ FilterIter.Spec.given (machine val) (.name acc) name = [] := by
  induction name generalizing acc with
  | nil => exact ⟨by rw [List.append_nil]; rfl, rfl⟩
  | cons x r ih =>
    have hx : x ≠ 125 := fun e => h (by rw [e]; exact List.mem_cons_self)
    have hr : 125 ∉ r := fun e => h (List.mem_cons_of_mem _ e)
    have he : (machine val).emit (.name acc) x = (.name (acc ++ [x]), []) := by simp only [machine, if_neg hx]
    obtain ⟨h1, h2⟩ := ih (acc ++ [x]) hr
    constructor
    · simp only [FilterIter.Spec.state, he, h1, List.append_assoc, List.singleton_append]
    · simp only [FilterIter.Spec.given, he, h2, List.nil_append]

theorem piece_run (val : List Nat → List Nat) (p : Spec.Piece) (h : Spec.Good p) :
    FilterIter.Spec.state (machine val) .out (Spec.text p) = .out ∧ FilterIter.Spec.given (machine val) .out (Spec.text p) = Spec.value val p := by
  cases p with
  | plain c =>
    have he : (machine val).emit .out c = (.out, [c]) := by simp only [machine, if_neg (show ¬ c = 36 from h)]
    exact ⟨by simp only [Spec.text, FilterIter.Spec.state, he], by simp only [Spec.text, Spec.value, FilterIter.Spec.given, he, List.append_nil]⟩
  | quoted c =>
    have h1 : (machine val).emit .out 36 = (.dollar, []) := rfl
    have he : (machine val).emit .dollar c = (.out, [c]) := by simp only [machine, if_neg (show ¬ c = 123 from h)]
    exact ⟨by simp only [Spec.text, FilterIter.Spec.state, h1, he], by simp only [Spec.text, Spec.value, FilterIter.Spec.given, h1, he, List.append_nil, List.nil_append]⟩
  | var name =>
    obtain ⟨h1, h2⟩ := name_run val name [] h
    have hs : FilterIter.Spec.state (machine val) .out ([36, 123] ++ name) = .name name := by
      rw [state_append]
      exact h1
    have hg : FilterIter.Spec.given (machine val) .out ([36, 123] ++ name) = [] := by
      rw [given_append]
      show [] ++ FilterIter.Spec.given (machine val) (.name []) name = []
      rw [h2]
      rfl
    have he : (machine val).emit (.name name) 125 = (.out, val name) := rfl
    constructor
    · simp only [Spec.text]
      rw [state_append, hs]
      simp only [FilterIter.Spec.state, he]
    · simp only [Spec.text, Spec.value]
      rw [given_append, hs, hg]
      simp only [FilterIter.Spec.given, he, List.nil_append, List.append_nil]

theorem pieces_run (val : List Nat → List Nat) (ps : List Spec.Piece) (h : ∀ p, p ∈ ps → Spec.Good p) :
    FilterIter.Spec.state (machine val) .out (ps.flatMap Spec.text) = .out ∧ FilterIter.Spec.given (machine val) .out (ps.flatMap Spec.text) = ps.flatMap (Spec.value val) := by
  induction ps with
  | nil => exact ⟨rfl, rfl⟩
  | cons p r ih =>
    obtain ⟨h1, h2⟩ := piece_run val p (h p List.mem_cons_self)
    obtain ⟨h3, h4⟩ := ih (fun x hx => h x (List.mem_cons_of_mem _ hx))
    simp only [List.flatMap_cons]
    rw [state_append, given_append, h1, h2, h3, h4]
    exact ⟨rfl, rfl⟩

/-- C131 — reading a template of pieces through the filter gives the values of the pieces, in their order. -/
theorem C131_read (t : Table) (ps : List Spec.Piece) (h : ∀ p, p ∈ ps → Spec.Good p) (n : Nat) (hn : (ps.flatMap (Spec.value (getValue t))).length < n) :
    reads (filter t) n (rd init (ps.flatMap Spec.text)) = (ps.flatMap (Spec.value (getValue t)), some .noItems) := by
  have hw : FilterIter.Spec.whole (machine (getValue t)) .out (ps.flatMap Spec.text) = ps.flatMap (Spec.value (getValue t)) := by
    rw [FilterIter.Spec.whole, (pieces_run (getValue t) ps h).2]
    exact List.append_nil _
  have := C130_read (works t) init (ps.flatMap Spec.text) ⟨fun c => (by cases c), fun _ => rfl⟩ rfl n (by
    show (FilterIter.Spec.whole (machine (getValue t)) .out _).length < n
    rw [hw]
    exact hn)
  rw [this]
  show (FilterIter.Spec.whole (machine (getValue t)) .out _, _) = _
  rw [hw]

/-- C131 — writing a template of pieces through the filter writes the values of the pieces. -/
theorem C131_write (t : Table) (ps : List Spec.Piece) (h : ∀ p, p ∈ ps → Spec.Good p) (cap : Nat) (hn : (ps.flatMap (Spec.value (getValue t))).length ≤ cap) :
    ∃ w w', writes (filter t) ⟨init, [], cap⟩ (ps.flatMap Spec.text) = .ok w ∧ FilterIter.flush (filter t) w = .ok w' ∧ w'.out = ps.flatMap (Spec.value (getValue t)) := by
  have hw : FilterIter.Spec.whole (machine (getValue t)) .out (ps.flatMap Spec.text) = ps.flatMap (Spec.value (getValue t)) := by
    rw [FilterIter.Spec.whole, (pieces_run (getValue t) ps h).2]
    exact List.append_nil _
  have := C130_write_all (works t) init (ps.flatMap Spec.text) cap ⟨fun c => (by cases c), fun _ => rfl⟩ rfl (open_of (works t) (fun _ c => c) _ _) (by
    show (FilterIter.Spec.whole (machine (getValue t)) .out _).length ≤ cap
    rw [hw]
    exact hn)
  obtain ⟨w, w', e1, e2, e3⟩ := this
  refine ⟨w, w', e1, e2, ?_⟩
  rw [e3]
  exact hw

/-- C131 — a text without `$` is unchanged. -/
theorem C131_plain (t : Table) (l : List Nat) (h : 36 ∉ l) : reads (filter t) (l.length + 1) (rd init l) = (l, some .noItems) := by
  have h1 : (l.map Spec.Piece.plain).flatMap Spec.text = l := by
    induction l with
    | nil => rfl
    | cons x r ih =>
      simp only [List.map_cons, List.flatMap_cons, Spec.text, ih (fun c => h (List.mem_cons_of_mem _ c)), List.singleton_append]
  have h2 : (l.map Spec.Piece.plain).flatMap (Spec.value (getValue t)) = l := by
    induction l with
    | nil => rfl
    | cons x r ih =>
      have := ih (fun c => h (List.mem_cons_of_mem _ c)) (by simp only [List.map_cons, List.flatMap_cons, Spec.text, List.singleton_append, List.cons.injEq, true_and] at h1; exact h1)
      simp only [List.map_cons, List.flatMap_cons, Spec.value, this, List.singleton_append]
  have := C131_read t (l.map Spec.Piece.plain) (by
    intro p hp
    obtain ⟨c, hc, rfl⟩ := List.mem_map.1 hp
    exact fun e => h (by rw [← show c = 36 from e]; exact hc)) (l.length + 1) (by rw [h2]; exact Nat.lt_succ_self _)
  rw [h1, h2] at this
  exact this

/-- C131 — the value of a variable is that of its last declaration; a variable without a declaration has the empty value. -/
theorem C131_getValue (t : Table) (name : List Nat) :
    (∀ val, getValue (decl t name val) name = val) ∧ (∀ var val, var ≠ name → getValue (decl t var val) name = getValue t name) ∧ getValue [] name = [] := by
  refine ⟨fun val => ?_, fun var val h => ?_, rfl⟩
  · simp only [decl, getValue, if_true]
  · simp only [decl, getValue, if_neg (fun e => h (Eq.symm e))]

/-- C131, part — through the filter `hasItems` says no only if nothing is to come.  Missing: it says yes only if something is to come (`C131_hasItems_violated`). -/
theorem C131_hasItems_partial (t : Table) (r : Rd Ph Nat Nat) (hi : (works t).inv r.flt) (h : FilterIter.hasItems (filter t) r = false) :
    getNext (filter t) r = .error .noItems := by
  have h1 := C130_hasItems_no (works t) r hi h
  have h2 : (works t).rest r = [] := h1
  rcases C130_getNext (works t) r hi with ⟨_, e⟩ | ⟨b, bs, r', e, _⟩
  · exact e
  · rw [h2] at e
    cases e

/-- C131 — violated (iteratorFilter.tcc:49-52 with placeholders.h:66-69): behind the last character given there is `${x}` with an empty value, or a lone `$`: `hasItems` says yes and `getNext` throws.
This is also the violation of C130 by a filter that gives nothing for an item. -/
theorem C131_hasItems_violated :
    readsWhile (filter []) 9 (rd init [97, 36, 123, 120, 125]) = ([97], some .noItems) ∧ readsWhile (filter []) 9 (rd init [97, 36]) = ([97], some .noItems) ∧
    readsWhile (filter []) 9 (rd init [97]) = ([97], none) := by
  refine ⟨rfl, rfl, rfl⟩

/-- C130 — violated (iteratorFilter.tcc:49-52): `hasItems` says yes though nothing is to come. -/
theorem C130_hasItems_yes_violated : FilterIter.hasItems (filter []) (rd init [36]) = true ∧ getNext (filter []) (rd init [36] : Rd Ph Nat Nat) = .error .noItems := by
  refine ⟨rfl, rfl⟩

/-- C131 — violated (placeholders.h:59-73, 98-100): what is behind a `${` that is not closed is lost, without an error. -/
theorem C131_open_violated : reads (filter [([97], [49])]) 9 (rd init [120, 36, 123, 97, 98]) = ([120], some .noItems) := rfl

/-- All items that a converter has ready, at most `n`. -/
def convAll : Nat → Conv → Except Fail (List Nat × Conv)
  | 0, c => .ok ([], c)
  | n + 1, c =>
    if c.hasItems = true then
      match convNext c with
      | .error e => .error e
      | .ok (x, c') =>
        match convAll n c' with
        | .error e => .error e
        | .ok (l, c'') => .ok (x :: l, c'')
    else .ok ([], c)

theorem convAll_works (t : Table) (n : Nat) (p : Ph) (hi : (works t).inv p) (hn : ((works t).pend p).length ≤ n) :
    ∃ p', convAll n (updateState p) = .ok ((works t).pend p, updateState p') ∧ (works t).inv p' ∧ (works t).q p' = (works t).q p ∧ (works t).pend p' = [] := by
  induction n generalizing p with
  | zero =>
    have he : (works t).pend p = [] := List.eq_nil_of_length_eq_zero (by omega)
    exact ⟨p, by simp only [convAll, he], hi, rfl, he⟩
  | succ n ih =>
    cases e : (works t).pend p with
    | nil =>
      have : ¬ (updateState p).hasItems = true := fun c => ((works t).has p hi).1 c e
      exact ⟨p, by simp only [convAll, if_neg this], hi, rfl, e⟩
    | cons b bs =>
      obtain ⟨p1, e1, i1, q1, p1'⟩ := (works t).out p b bs hi e
      have e1 : output p = .ok (b, p1) := e1
      rw [e, List.length_cons] at hn
      obtain ⟨p2, e2, i2, q2, p2'⟩ := ih p1 i1 (by rw [p1']; omega)
      have hh : (updateState p).hasItems = true := ((works t).has p hi).2 (by rw [e]; exact List.cons_ne_nil _ _)
      refine ⟨p2, ?_, i2, by rw [q2, q1], p2'⟩
      simp only [convAll, if_pos hh, convNext]
      simp only [updateState, e1]
      have e2 : convAll n ⟨p1, hasOut p1, needItems p1⟩ = .ok ((works t).pend p1, updateState p2) := e2
      simp only [e2, p1', updateState]

/-- C131 — the converter gives for each character what the filter gives: written while `needItems`, it gives the items that the machine gives, and takes the next character after them. -/
theorem C131_convert (t : Table) (p : Ph) (x : Nat) (hi : (works t).inv p) (hn : (updateState p).needItems = true) (hp : (works t).pend p = []) (n : Nat)
    (hl : ((machine (getValue t)).emit ((works t).q p) x).2.length ≤ n) :
    ∃ c p', convWrite t (updateState p) x = .ok c ∧ convAll n c = .ok (((machine (getValue t)).emit ((works t).q p) x).2, updateState p') ∧ (works t).inv p' ∧
      (works t).q p' = ((machine (getValue t)).emit ((works t).q p) x).1 ∧ (works t).pend p' = [] ∧ (updateState p').needItems = true := by
  obtain ⟨p1, e1, i1, q1, p1'⟩ := (works t).inp p x hi hn
  have e1 : input t p x = .ok p1 := e1
  rw [hp, List.nil_append] at p1'
  obtain ⟨p2, e2, i2, q2, p2'⟩ := convAll_works t n p1 i1 (by rw [p1']; exact hl)
  refine ⟨updateState p1, p2, ?_, by rw [e2, p1'], i2, by rw [q2, q1], p2', (works t).need p2 i2 p2' (fun c => c)⟩
  show (match input t p x with | .error e => _ | .ok p => _) = _
  rw [e1]

/-! ## Cases -/

example : reads (filter [([97], [49, 50])]) 9 (rd init [120, 36, 123, 97, 125, 36, 36, 121]) = ([120, 49, 50, 36, 121], some .noItems) := rfl
example : reads (filter [([97], [49, 50])]) 6 (rd init ([.plain 120, .var [97], .quoted 36, .plain 121].flatMap Spec.text)) = ([120, 49, 50, 36, 121], some .noItems) :=
  C131_read [([97], [49, 50])] [.plain 120, .var [97], .quoted 36, .plain 121] (by
    intro p hp
    simp only [List.mem_cons, List.not_mem_nil, or_false] at hp
    rcases hp with rfl | rfl | rfl | rfl <;> simp [Spec.Good]) 6 (by decide)
example : getValue (decl (decl [] [97] [49]) [97] [50]) [97] = [50] := rfl
example : (updateState init).needItems = true ∧ (updateState init).hasItems = false := ⟨rfl, rfl⟩

end LS.Placeholder

/-
Results about the text formatter (model in `TextFmt.lean`), property C142.

The specification is the list of pattern characters in textFormat.h:85-98 as a
tree, how the tree is written and what it means; it does not use the model.
-/
import Verif.TextFmt

namespace LS.TextFmt

/-- The number written by decimal digits. -/
def value (ds : List Nat) : Nat := ds.foldl (fun a d => a * 10 + d) 0

def digitsT (ds : List Nat) : Text := ds.map (· + 48)

/-- What may stand in braces: `+` or `-`, a character to fill with, the width,
and another character to fill with. -/
structure Fmt where
  sign : Option Bool
  fill : Option Nat
  width : List Nat
  post : Option Nat

/-- The parts of a pattern: a character, the end of a line, `%%`, `%` before the
end of a line, `%` at the end, and an argument, maybe closed by `%`. -/
inductive Item where
  | chr (c : Nat)
  | nl
  | pct
  | rawnl
  | lone
  | arg (f : Option Fmt) (i : List Nat) (closed : Bool)

def signT : Option Bool → Text
  | none => []
  | some true => [43]
  | some false => [45]

def optT : Option Nat → Text
  | none => []
  | some c => [c]

/-- How a format is written. -/
def Fmt.text (f : Fmt) : Text :=
  123 :: (signT f.sign ++ (optT f.fill ++ (digitsT f.width ++ (optT f.post ++ [125]))))

def fmtT : Option Fmt → Text
  | none => []
  | some f => f.text

/-- How an item is written. -/
def Item.text : Item → Text
  | chr c => [c]
  | nl => [10]
  | pct => [37, 37]
  | rawnl => [37, 10]
  | lone => [37]
  | arg f i closed => 37 :: (fmtT f ++ (digitsT i ++ (if closed then [37] else [])))

def texts (l : List Item) : Text := l.flatMap Item.text

/-- A format that can be written: a character to fill with is no digit and not
taken for something else. -/
def Fmt.Good (f : Fmt) : Prop :=
  (∀ d ∈ f.width, d < 10) ∧ value f.width < 2 ^ 64 ∧
  (f.fill = none → ∃ d r, f.width = d :: r ∧ d ≠ 0) ∧
  (∀ c, f.fill = some c → c < 256 ∧ (c < 49 ∨ c > 57) ∧ (f.sign = none → c ≠ 43 ∧ c ≠ 45)) ∧
  (∀ c, f.post = some c → c < 256 ∧ (c < 48 ∨ c > 57) ∧ c ≠ 125)

/-- An item that can be written before `rest`. -/
def Item.Good (rest : Text) : Item → Prop
  | chr c => c ≠ 10 ∧ c ≠ 37
  | nl => True
  | pct => True
  | rawnl => True
  | lone => rest = []
  | arg f i closed => (∀ g, f = some g → g.Good) ∧ (∀ d ∈ i, d < 10) ∧ i ≠ [] ∧ value i < 2 ^ 64 ∧
      (closed = false → ∀ c, rest.head? = some c → (c < 48 ∨ c > 57) ∧ c ≠ 37)

def AllGood : List Item → Prop
  | [] => True
  | i :: r => i.Good (texts r) ∧ AllGood r

/-- The sign and the rest of an argument. -/
def Fmt.parts (f : Fmt) (t : Text) : Text × Text :=
  match t with
  | [] => if f.sign = some true then ([43], []) else ([], [])
  | c :: r =>
    if c = 45 then ([45], r)
    else if f.sign = some true then (if c = 43 then ([43], r) else ([43], c :: r))
    else ([], c :: r)

/-- The argument in its space: at the left without sign and filling, at the right
with one of them, and the filling behind the sign with both. -/
def Fmt.pad (f : Fmt) (t : Text) : Text :=
  let p := f.parts t
  let room := List.replicate (value f.width - (p.1.length + p.2.length)) ((f.post.or f.fill).getD 32)
  match f.sign, f.fill with
  | none, none => p.1 ++ p.2 ++ room
  | some _, some _ => p.1 ++ room ++ p.2
  | _, _ => room ++ p.1 ++ p.2

/-- The argument with a number, counted from one. -/
def argText (args : List Text) (k : Nat) : Text := if k = 0 then [] else args.getD (k - 1) []

/-- What an item means. -/
def Item.mean (nl : Text) (args : List Text) : Item → Text
  | chr c => [c]
  | .nl => nl
  | pct => [37]
  | rawnl => [10]
  | lone => [37]
  | arg none i _ => argText args (value i)
  | arg (some f) i _ => f.pad (argText args (value i))

/-- Arguments added one by one; `true` is one that is copied. -/
def addAll : TF → List (Bool × Text) → Option TF
  | s, [] => some s
  | s, (b, t) :: r =>
    match (if b then addBuf s t else addRef s t) with
    | none => none
    | some s' => addAll s' r

/-! ### The arguments -/

structure Inv (s : TF) (args : List Text) : Prop where
  len : s.params.length = args.length
  last : lastEnd s.params.reverse = s.buff.length
  ends : ∀ n, Param.pos n ∈ s.params → n ≤ s.buff.length
  frag : ∀ i (h : i < args.length), fragment s (i + 1) = args[i]

theorem take_append_le {a b : Text} {n : Nat} (h : n ≤ a.length) : (a ++ b).take n = a.take n := by
  rw [List.take_append_of_le_length h]

theorem lastEnd_le {m : Nat} : ∀ {l : List Param}, (∀ n, Param.pos n ∈ l → n ≤ m) → lastEnd l ≤ m
  | [], _ => Nat.zero_le _
  | .ref t :: r, h => lastEnd_le (l := r) fun n hn => h n (by simp [hn])
  | .pos k :: r, h => by
    unfold lastEnd
    split
    · exact lastEnd_le (l := r) fun n hn => h n (by simp [hn])
    · exact h k (by simp)

/-- An argument already there is not changed by a new one. -/
theorem fragment_old {s : TF} {i : Nat} (hi : i < s.params.length) (t : Text) (p : Param)
    (he : ∀ n, Param.pos n ∈ s.params → n ≤ s.buff.length) (pat nl : Text) :
    fragment ⟨pat, s.buff ++ t, s.params ++ [p], nl⟩ (i + 1) = fragment s (i + 1) := by
  unfold fragment
  simp only [Nat.add_sub_cancel, Nat.succ_ne_zero, if_false]
  rw [List.getElem?_append_left hi, List.take_append_of_le_length (by omega)]
  cases hp : s.params[i]? with
  | none => rfl
  | some q =>
    cases q with
    | ref u => rfl
    | pos n =>
      have hm : Param.pos n ∈ s.params := List.mem_of_getElem? hp
      have hn := he n hm
      simp only
      split
      · rfl
      · split
        · exact take_append_le hn
        · have hf : lastEnd (s.params.take i).reverse ≤ s.buff.length := by
            apply lastEnd_le
            intro k hk
            exact he k (List.mem_of_mem_take (List.mem_reverse.1 hk))
          rw [List.drop_append_of_le_length hf, take_append_le]
          simp; omega

theorem inv_ref {s s' : TF} {args : List Text} (h : Inv s args) (t : Text) (e : addRef s t = some s') :
    Inv s' (args ++ [t]) ∧ s'.pat = s.pat ∧ s'.nl = s.nl := by
  unfold addRef push at e
  split at e
  · cases e
    refine ⟨⟨by simp [h.len], by simp [lastEnd, h.last], ?_, ?_⟩, rfl, rfl⟩
    · intro n hn
      simp at hn
      exact h.ends n hn
    · intro i hi
      by_cases hl : i < args.length
      · have := fragment_old (s := s) (i := i) (by rw [h.len]; exact hl) [] (.ref t) h.ends s.pat s.nl
        simp only [List.append_nil] at this
        rw [this, h.frag i hl, List.getElem_append_left hl]
      · have : i = args.length := by simp at hi; omega
        subst this
        unfold fragment
        simp [← h.len]
  · cases e

theorem inv_buf {s s' : TF} {args : List Text} (h : Inv s args) (t : Text) (e : addBuf s t = some s') :
    Inv s' (args ++ [t]) ∧ s'.pat = s.pat ∧ s'.nl = s.nl := by
  unfold addBuf push at e
  simp only at e
  split at e
  · cases e
    refine ⟨⟨by simp [h.len], ?_, ?_, ?_⟩, rfl, rfl⟩
    · simp only [List.reverse_append, List.reverse_cons, List.reverse_nil, List.nil_append,
        List.cons_append, lastEnd, List.length_append]
      split
      · rw [h.last]; omega
      · rfl
    · intro n hn
      simp at hn
      rcases hn with hn | hn
      · have := h.ends n hn
        simp; omega
      · subst hn; simp
    · intro i hi
      by_cases hl : i < args.length
      · have := fragment_old (s := s) (i := i) (by rw [h.len]; exact hl) t
          (.pos (s.buff.length + t.length)) h.ends s.pat s.nl
        rw [this, h.frag i hl, List.getElem_append_left hl]
      · have : i = args.length := by simp at hi; omega
        subst this
        unfold fragment
        simp only [Nat.succ_ne_zero, if_false, Nat.add_sub_cancel]
        have el : (args ++ [t])[args.length]'hi = t := by simp
        rw [el, ← h.len]
        simp only [List.getElem?_append_right (Nat.le_refl _), Nat.sub_self, List.getElem?_cons_zero]
        split
        · rename_i h0
          have : t.length = 0 := by omega
          exact (List.length_eq_zero_iff.1 this).symm
        · split
          · rename_i h0
            have hb : s.buff.length = 0 := by
              rw [← h.last, List.length_eq_zero_iff.1 h0]; rfl
            rw [List.length_eq_zero_iff.1 hb]
            simp
          · simp only [List.take_append_of_le_length (Nat.le_refl _), List.take_length, h.last]
            simp
  · cases e

theorem inv_all : ∀ (ops : List (Bool × Text)) {s s' : TF} {args : List Text}, Inv s args →
    addAll s ops = some s' → Inv s' (args ++ ops.map (·.2)) ∧ s'.pat = s.pat ∧ s'.nl = s.nl
  | [], s, s', args, h, e => by
    cases e
    simpa using h
  | (b, t) :: r, s, s', args, h, e => by
    unfold addAll at e
    cases b with
    | true =>
      simp only [if_true] at e
      cases ha : addBuf s t with
      | none => rw [ha] at e; cases e
      | some u =>
        rw [ha] at e
        obtain ⟨h1, h2, h3⟩ := inv_buf h t ha
        obtain ⟨g1, g2, g3⟩ := inv_all r h1 e
        exact ⟨by simpa using g1, g2.trans h2, g3.trans h3⟩
    | false =>
      simp only [Bool.false_eq_true, if_false] at e
      cases ha : addRef s t with
      | none => rw [ha] at e; cases e
      | some u =>
        rw [ha] at e
        obtain ⟨h1, h2, h3⟩ := inv_ref h t ha
        obtain ⟨g1, g2, g3⟩ := inv_all r h1 e
        exact ⟨by simpa using g1, g2.trans h2, g3.trans h3⟩

theorem inv_pattern (s : TF) (p : Text) : Inv (setPattern s p) [] :=
  ⟨rfl, rfl, fun n hn => by simp [setPattern] at hn, fun i h => absurd h (by simp)⟩

theorem fragment_args {s : TF} {args : List Text} (h : Inv s args) (k : Nat) : fragment s k = argText args k := by
  cases k with
  | zero => rfl
  | succ i =>
    by_cases hl : i < args.length
    · rw [h.frag i hl]
      simp [argText, hl]
    · have h1 : s.params[i]? = none := by
        rw [List.getElem?_eq_none_iff, h.len]; omega
      have h2 : args[i]? = none := by
        rw [List.getElem?_eq_none_iff]; omega
      simp [fragment, argText, h1, h2]

/-! ### Reading the pattern -/

theorem fold_mod (M : Nat) : ∀ (ds : List Nat) (a : Nat),
    ds.foldl (fun x d => (x * 10 + d) % M) (a % M) = (ds.foldl (fun x d => x * 10 + d) a) % M
  | [], a => rfl
  | d :: r, a => by
    have e : (a % M * 10 + d) % M = (a * 10 + d) % M := by
      simp [Nat.add_mod, Nat.mul_mod]
    simp only [List.foldl_cons, e]
    exact fold_mod M r (a * 10 + d)

theorem value_mod {ds : List Nat} (h : value ds < 2 ^ 64) :
    ds.foldl (fun x d => (x * 10 + d) % 2 ^ 64) 0 = value ds := by
  have := fold_mod (2 ^ 64) ds 0
  rw [Nat.zero_mod] at this
  rw [this]
  exact Nat.mod_eq_of_lt h

theorem low_small {c : Nat} (h : c < 256) : low c = c := Nat.mod_eq_of_lt h

/-- The text does not go on with a digit. -/
def NoDigit (r : Text) : Prop := ∀ c, r.head? = some c → c < 48 ∨ c > 57

theorem digs_text : ∀ (ds : List Nat) (a : Nat) (r : Text), (∀ d ∈ ds, d < 10) →
    (∀ c, r.head? = some c → isDigit (low c) = false) →
    digs a (digitsT ds ++ r) = (ds.foldl (fun x d => (x * 10 + d) % 2 ^ 64) a, r)
  | [], a, r, _, h => by
    cases r with
    | nil => rfl
    | cons c r => simp [digitsT, digs, h c rfl]
  | d :: ds, a, r, hd, h => by
    have h1 : d < 10 := hd d (by simp)
    have h2 : ∀ e ∈ ds, e < 10 := fun e he => hd e (by simp [he])
    have hl : low (d + 48) = d + 48 := low_small (by omega)
    have hg : isDigit (d + 48) = true := by simp [isDigit]; omega
    have ih := digs_text ds ((a * 10 + d) % 2 ^ 64) r h2 h
    have : digitsT (d :: ds) ++ r = (d + 48) :: (digitsT ds ++ r) := by simp [digitsT]
    rw [this, digs, hl, hg, if_pos rfl, Nat.add_sub_cancel, ih]
    rfl

theorem index_text : ∀ (ds : List Nat) (a : Nat) (r : Text), (∀ d ∈ ds, d < 10) → NoDigit r →
    index a (digitsT ds ++ r) = (ds.foldl (fun x d => (x * 10 + d) % 2 ^ 64) a, r)
  | [], a, r, _, h => by
    cases r with
    | nil => rfl
    | cons c r =>
      have : isDigit c = false := by
        have := h c rfl
        simp [isDigit]; omega
      simp [digitsT, index, this]
  | d :: ds, a, r, hd, h => by
    have h1 : d < 10 := hd d (by simp)
    have h2 : ∀ e ∈ ds, e < 10 := fun e he => hd e (by simp [he])
    have hg : isDigit (d + 48) = true := by simp [isDigit]; omega
    have ih := index_text ds ((a * 10 + d) % 2 ^ 64) r h2 h
    have : digitsT (d :: ds) ++ r = (d + 48) :: (digitsT ds ++ r) := by simp [digitsT]
    rw [this, index, hg, if_pos rfl, Nat.add_sub_cancel, ih]
    rfl

theorem close_post {f : Fmt} (h : f.Good) (n : Nfo) (sp : Nat) (r : Text) :
    close n sp (optT f.post ++ [125] ++ r) =
      (some { n with space := sp, fill := f.post.or n.fill }, r) := by
  cases hp : f.post with
  | none => simp [optT, close, low]
  | some c =>
    obtain ⟨h1, _, h3⟩ := h.2.2.2.2 c hp
    have h4 : low c ≠ 125 := by rw [low_small h1]; exact h3
    have h5 : low 125 = 125 := rfl
    simp [optT, close, h4, h5]

theorem width_text {f : Fmt} (h : f.Good) (n : Nfo) (r : Text) :
    widthPart n (digitsT f.width ++ (optT f.post ++ [125] ++ r)) =
      (some { n with space := value f.width, fill := f.post.or n.fill }, r) := by
  unfold widthPart
  rw [digs_text _ _ _ h.1, value_mod h.2.1]
  · exact close_post h n _ r
  · intro c hc
    cases hp : f.post with
    | none =>
      rw [hp] at hc
      simp [optT] at hc
      subst hc; decide
    | some d =>
      rw [hp] at hc
      simp [optT] at hc
      subst hc
      obtain ⟨h1, h2, _⟩ := h.2.2.2.2 d hp
      rw [low_small h1]
      simp [isDigit]; omega

theorem fill_text {f : Fmt} (h : f.Good) (n : Nfo) (r : Text) :
    fillPart n (optT f.fill ++ (digitsT f.width ++ (optT f.post ++ [125] ++ r))) =
      (some ⟨value f.width, f.post.or f.fill, f.fill.isSome || n.right, n.force, f.fill.isSome && n.right⟩, r) := by
  cases hf : f.fill with
  | none =>
    obtain ⟨d, ds, e, h0⟩ := h.2.2.1 hf
    have hd : d < 10 := h.1 d (by simp [e])
    have hw := width_text h { n with fill := none, before := false } r
    rw [e] at hw ⊢
    have ee : optT none ++ (digitsT (d :: ds) ++ (optT f.post ++ [125] ++ r)) =
      (d + 48) :: (digitsT ds ++ (optT f.post ++ [125] ++ r)) := by simp [optT, digitsT]
    have e2 : digitsT (d :: ds) ++ (optT f.post ++ [125] ++ r) =
      (d + 48) :: (digitsT ds ++ (optT f.post ++ [125] ++ r)) := by simp [digitsT]
    rw [ee, fillPart, low_small (by omega), if_neg (by omega), ← e2, hw]
    simp
  | some c =>
    obtain ⟨h1, h2, _⟩ := h.2.2.2.1 c hf
    have ee : optT (some c) ++ (digitsT f.width ++ (optT f.post ++ [125] ++ r)) =
      c :: (digitsT f.width ++ (optT f.post ++ [125] ++ r)) := by simp [optT]
    rw [ee, fillPart, low_small h1, if_pos h2, width_text h]
    simp

/-- What the code reads from a format. -/
def nfoOf (f : Fmt) : Nfo :=
  ⟨value f.width, f.post.or f.fill, f.fill.isSome || f.sign.isSome, f.sign == some true,
    f.fill.isSome && f.sign.isSome⟩

theorem parse_text {f : Fmt} (h : f.Good) (r : Text) : parseInfo (f.text ++ r) = (some (nfoOf f), r) := by
  have e : f.text ++ r = 123 :: (signT f.sign ++
      (optT f.fill ++ (digitsT f.width ++ (optT f.post ++ [125] ++ r)))) := by simp [Fmt.text]
  rw [e, parseInfo, if_pos rfl]
  cases hs : f.sign with
  | some b =>
    cases b with
    | true =>
      show signPart (43 :: (optT f.fill ++ (digitsT f.width ++ (optT f.post ++ [125] ++ r)))) = _
      rw [signPart, if_pos (by decide), fill_text h]
      simp [nfoOf, hs]
    | false =>
      show signPart (45 :: (optT f.fill ++ (digitsT f.width ++ (optT f.post ++ [125] ++ r)))) = _
      rw [signPart, if_neg (by decide), if_pos (by decide), fill_text h]
      simp [nfoOf, hs]
  | none =>
    have key : ∃ c r', optT f.fill ++ (digitsT f.width ++ (optT f.post ++ [125] ++ r)) = c :: r' ∧
        low c ≠ 43 ∧ low c ≠ 45 := by
      cases hf : f.fill with
      | none =>
        obtain ⟨d, ds, e, _⟩ := h.2.2.1 hf
        have hd : d < 10 := h.1 d (by simp [e])
        refine ⟨d + 48, digitsT ds ++ (optT f.post ++ [125] ++ r), ?_, ?_, ?_⟩
        · simp [e, optT, digitsT]
        · rw [low_small (by omega)]; omega
        · rw [low_small (by omega)]; omega
      | some c =>
        obtain ⟨h1, _, h3⟩ := h.2.2.2.1 c hf
        refine ⟨c, digitsT f.width ++ (optT f.post ++ [125] ++ r), by simp [optT], ?_, ?_⟩
        · rw [low_small h1]; exact (h3 hs).1
        · rw [low_small h1]; exact (h3 hs).2
    obtain ⟨c, r', ec, h1, h2⟩ := key
    have := fill_text h ⟨8, none, false, false, false⟩ r
    rw [show signT none = [] from rfl, List.nil_append]
    rw [ec] at this ⊢
    rw [signPart, if_neg h1, if_neg h2, this]
    simp [nfoOf, hs]

theorem room_eq (s l : Nat) : (if s < l then 0 else s - l) = s - l := by split <;> omega

theorem format_pad (f : Fmt) (t : Text) : format (nfoOf f) t = f.pad t := by
  obtain ⟨sign, fill, width, post⟩ := f
  have e1 : ∀ n : Nat, (if n > 0 then n - 1 else n) = n - 1 := by intro n; split <;> omega
  have e2 : ∀ w l : Nat, w - (1 + l) = w - l - 1 := by intros; omega
  have e3 : ∀ w l : Nat, w - (1 + l) = w - (l + 1) := by intros; omega
  cases t with
  | nil =>
    cases sign with
    | none => cases fill <;> simp [format, nfoOf, Fmt.pad, Fmt.parts, fillOf]
    | some b =>
      cases b <;> cases fill <;>
        simp [format, nfoOf, Fmt.pad, Fmt.parts, fillOf] <;> omega
  | cons c r =>
    by_cases h1 : c = 45
    · subst h1
      cases sign with
      | none => cases fill <;> simp [format, nfoOf, Fmt.pad, Fmt.parts, fillOf, room_eq, e3]
      | some b => cases b <;> cases fill <;> simp [format, nfoOf, Fmt.pad, Fmt.parts, fillOf, room_eq, e3]
    · by_cases h2 : c = 43
      · subst h2
        cases sign with
        | none => cases fill <;> simp [format, nfoOf, Fmt.pad, Fmt.parts, fillOf, room_eq]
        | some b => cases b <;> cases fill <;> simp [format, nfoOf, Fmt.pad, Fmt.parts, fillOf, room_eq, e3]
      · cases sign with
        | none => cases fill <;> simp [format, nfoOf, Fmt.pad, Fmt.parts, fillOf, room_eq, h1, h2]
        | some b =>
          cases b <;> cases fill <;>
            simp [format, nfoOf, Fmt.pad, Fmt.parts, fillOf, room_eq, h1, h2] <;>
            (congr 1; split <;> omega)

/-! ### The loop -/

theorem go_nil (nl : Text) (frag : Nat → Text) (k : Nat) : go nl frag k [] = [] := by
  cases k <;> rfl

theorem go_nl (nl : Text) (frag : Nat → Text) (k : Nat) (r : Text) :
    go nl frag (k + 1) (10 :: r) = nl ++ go nl frag k r := rfl

theorem go_chr (nl : Text) (frag : Nat → Text) (k : Nat) {c : Nat} (r : Text) (h1 : c ≠ 10) (h2 : c ≠ 37) :
    go nl frag (k + 1) (c :: r) = c :: go nl frag k r := by
  simp [go, h1, h2]

theorem go_pct (nl : Text) (frag : Nat → Text) (k : Nat) {y : Nat} (r : Text) (h : y = 37 ∨ y = 10) :
    go nl frag (k + 1) (37 :: y :: r) = y :: go nl frag k r := by
  simp [go, h]

theorem go_arg (nl : Text) (frag : Nat → Text) (k : Nat) {y : Nat} (r : Text) (h1 : y ≠ 37) (h2 : y ≠ 10) :
    go nl frag (k + 1) (37 :: y :: r) =
      piece (argPart (y :: r)).1.1 (frag (argPart (y :: r)).1.2) ++ go nl frag k (argPart (y :: r)).2 := by
  simp [go, h1, h2]

theorem skipPct_other {r : Text} (h : ∀ c, r.head? = some c → c ≠ 37) : skipPct r = r := by
  cases r with
  | nil => rfl
  | cons c r => simp [skipPct, h c rfl]

theorem arg_text {f : Option Fmt} {i : List Nat} {closed : Bool} {rest : Text}
    (h : Item.Good rest (.arg f i closed)) :
    argPart (fmtT f ++ (digitsT i ++ (if closed then [37] else [])) ++ rest) =
      ((f.map nfoOf, value i), rest) := by
  obtain ⟨h1, h2, h3, h4, h5⟩ := h
  have hi : ∀ tl : Text, tl = (if closed then [37] else []) ++ rest →
      index 0 (digitsT i ++ tl) = (value i, tl) ∧ skipPct tl = rest := by
    intro tl et
    cases closed with
    | true =>
      simp only [if_true, List.cons_append, List.nil_append] at et
      subst et
      rw [index_text i 0 _ h2, value_mod h4]
      · exact ⟨rfl, rfl⟩
      · intro c hc
        simp at hc
        omega
    | false =>
      simp only [Bool.false_eq_true, if_false, List.nil_append] at et
      subst et
      have h6 := h5 rfl
      rw [index_text i 0 _ h2, value_mod h4]
      · exact ⟨rfl, skipPct_other fun c hc => (h6 c hc).2⟩
      · intro c hc
        exact (h6 c hc).1
  obtain ⟨g1, g2⟩ := hi _ rfl
  unfold argPart
  cases f with
  | some g =>
    have e : fmtT (some g) ++ (digitsT i ++ (if closed then [37] else [])) ++ rest =
      g.text ++ (digitsT i ++ ((if closed then [37] else []) ++ rest)) := by simp [fmtT]
    rw [e, parse_text (h1 g rfl)]
    simp only [g1, g2]
    rfl
  | none =>
    have e : fmtT none ++ (digitsT i ++ (if closed then [37] else [])) ++ rest =
      digitsT i ++ ((if closed then [37] else []) ++ rest) := by simp [fmtT]
    have hp : parseInfo (digitsT i ++ ((if closed then [37] else []) ++ rest)) =
        (none, digitsT i ++ ((if closed then [37] else []) ++ rest)) := by
      cases i with
      | nil => exact absurd rfl h3
      | cons d ds =>
        have hd := h2 d (by simp)
        have : d + 48 ≠ 123 := by omega
        simp [digitsT, parseInfo, this]
    rw [e, hp]
    simp only [g1, g2]
    rfl

theorem arg_head {f : Option Fmt} {i : List Nat} {closed : Bool} {rest : Text}
    (h : Item.Good rest (.arg f i closed)) :
    ∃ y r, fmtT f ++ (digitsT i ++ (if closed then [37] else [])) ++ rest = y :: r ∧ y ≠ 37 ∧ y ≠ 10 := by
  obtain ⟨_, h2, h3, _, _⟩ := h
  cases f with
  | some g => 
    exact ⟨123, signT g.sign ++ (optT g.fill ++ (digitsT g.width ++ (optT g.post ++ [125]))) ++
      (digitsT i ++ (if closed then [37] else [])) ++ rest, by simp [fmtT, Fmt.text], by decide, by decide⟩
  | none =>
    cases i with
    | nil => exact absurd rfl h3
    | cons d ds =>
      exact ⟨d + 48, digitsT ds ++ (if closed then [37] else []) ++ rest, by simp [fmtT, digitsT], by omega, by omega⟩

theorem texts_cons (i : Item) (r : List Item) : texts (i :: r) = i.text ++ texts r := by simp [texts]

theorem go_items (nl : Text) (args : List Text) : ∀ (l : List Item) (k : Nat), AllGood l →
    (texts l).length ≤ k → go nl (argText args) k (texts l) = l.flatMap (Item.mean nl args)
  | [], k, _, _ => by simp [texts, go_nil]
  | i :: r, k, h, hk => by
    obtain ⟨h1, h2⟩ := h
    rw [texts_cons] at hk ⊢
    simp only [List.flatMap_cons]
    have hpos : ∃ m, k = m + 1 := by
      have : 0 < i.text.length := by cases i <;> simp [Item.text]
      simp at hk
      exact ⟨k - 1, by omega⟩
    obtain ⟨m, rfl⟩ := hpos
    cases i with
    | chr c =>
      have hm : (texts r).length ≤ m := by simp [Item.text] at hk; omega
      show go nl _ (m + 1) (c :: texts r) = _
      rw [go_chr _ _ _ _ h1.1 h1.2, go_items nl args r m h2 hm]
      rfl
    | nl =>
      have hm : (texts r).length ≤ m := by simp [Item.text] at hk; omega
      show go nl _ (m + 1) (10 :: texts r) = _
      rw [go_nl, go_items nl args r m h2 hm]
      rfl
    | pct =>
      have hm : (texts r).length ≤ m := by simp [Item.text] at hk; omega
      show go nl _ (m + 1) (37 :: 37 :: texts r) = _
      rw [go_pct _ _ _ _ (Or.inl rfl), go_items nl args r m h2 hm]
      rfl
    | rawnl =>
      have hm : (texts r).length ≤ m := by simp [Item.text] at hk; omega
      show go nl _ (m + 1) (37 :: 10 :: texts r) = _
      rw [go_pct _ _ _ _ (Or.inr rfl), go_items nl args r m h2 hm]
      rfl
    | lone =>
      have e : texts r = [] := h1
      have hm : (texts r).length ≤ m := by rw [e]; simp
      have ih := go_items nl args r m h2 hm
      rw [e, go_nil] at ih
      rw [e, ← ih]
      rfl
    | arg f d closed =>
      have hm : (texts r).length ≤ m := by simp [Item.text] at hk; omega
      obtain ⟨y, u, e, e1, e2⟩ := arg_head h1
      have ha := arg_text h1
      have : (Item.arg f d closed).text ++ texts r = 37 :: y :: u := by
        rw [← e]; simp [Item.text]
      rw [this, go_arg _ _ _ _ e1 e2, ← e, ha]
      simp only [go_items nl args r m h2 hm]
      congr 1
      cases f with
      | none => rfl
      | some g =>
        show format (nfoOf g) _ = _
        rw [format_pad]
        rfl

/-! ### C142 -/

/-- C142: every argument is read back as it was given, whether it is copied or
referred to, in any order; numbers beyond the last one give nothing. -/
theorem C142_arguments (s s' : TF) (p : Text) (ops : List (Bool × Text))
    (h : addAll (setPattern s p) ops = some s') (k : Nat) :
    fragment s' k = argText (ops.map (·.2)) k := by
  have := (inv_all ops (inv_pattern s p) h).1
  exact fragment_args (by simpa using this) k

example : ∃ s', addAll (setPattern ⟨[], [], [], [10]⟩ [37]) [(true, []), (false, [65]), (true, [66, 67]), (true, [68])] = some s' ∧
    fragment s' 1 = [] ∧ fragment s' 3 = [66, 67] ∧ fragment s' 4 = [68] := ⟨_, rfl, by decide, by decide, by decide⟩

/-- C142: thirty arguments can be given, the next one throws. -/
theorem C142_limit (s : TF) (p : Text) (ops : List (Bool × Text)) :
    (addAll (setPattern s p) ops).isSome = true ↔ ops.length ≤ 30 := by
  have key : ∀ (ops : List (Bool × Text)) (s : TF), s.params.length ≤ 30 →
      ((addAll s ops).isSome = true ↔ s.params.length + ops.length ≤ 30) := by
    intro ops
    induction ops with
    | nil => intro s h; simp [addAll, h]
    | cons o r ih =>
      intro s h
      obtain ⟨b, t⟩ := o
      by_cases hl : s.params.length < 30
      · have : ∃ s', (if b then addBuf s t else addRef s t) = some s' ∧ s'.params.length = s.params.length + 1 := by
          cases b
          · exact ⟨{ s with params := s.params ++ [.ref t] }, by simp [addRef, push, maxParams, hl], by simp⟩
          · exact ⟨{ s with buff := s.buff ++ t, params := s.params ++ [.pos (s.buff.length + t.length)] },
              by simp [addBuf, push, maxParams, hl], by simp⟩
        obtain ⟨s', e1, e2⟩ := this
        unfold addAll
        rw [e1]
        simp only
        rw [ih s' (by omega), e2]
        simp; omega
      · have : (if b then addBuf s t else addRef s t) = none := by
          cases b <;> simp [addRef, addBuf, push, maxParams, hl]
        unfold addAll
        rw [this]
        simp; omega
  have := key ops (setPattern s p) (by simp [setPattern])
  simpa [setPattern] using this

/-- C142: a pattern gives what its parts mean: characters, ends of lines, `%%`
and arguments with sign, filling and width; afterwards the arguments are gone. -/
theorem C142_output (s s' : TF) (l : List Item) (ops : List (Bool × Text)) (hg : AllGood l) (hl : l ≠ [])
    (h : addAll (setPattern s (texts l)) ops = some s') :
    (output s').1 = l.flatMap (Item.mean s.nl (ops.map (·.2))) ∧
    (output s').2 = { s' with buff := [], params := [] } := by
  obtain ⟨h1, h2, h3⟩ := inv_all ops (inv_pattern s (texts l)) h
  refine ⟨?_, rfl⟩
  have hp : s'.pat = texts l := h2
  have hn : s'.nl = s.nl := h3
  have hf : fragment s' = argText (ops.map (·.2)) := by
    funext k
    exact fragment_args (by simpa using h1) k
  have hne : (texts l).isEmpty = false := by
    cases l with
    | nil => exact absurd rfl hl
    | cons i r =>
      rw [texts_cons]
      cases i <;> simp [Item.text]
  unfold output
  simp only [hp, hne, hn, hf]
  exact go_items s.nl _ l _ hg (Nat.le_refl _)

/-- `a%{+05}1|%{4}2\n` with `7` and `-x`. -/
example : (addAll (setPattern ⟨[], [], [], [13, 10]⟩
      [97, 37, 123, 43, 48, 53, 125, 49, 124, 37, 123, 52, 125, 50, 10]) [(true, [55]), (false, [45, 120])]).map
      (fun s => (output s).1) =
    some [97, 43, 48, 48, 48, 55, 124, 45, 120, 32, 32, 13, 10] := by decide

example : texts [.chr 97, .arg (some ⟨some true, some 48, [5], none⟩) [1] false, .chr 124,
    .arg (some ⟨none, none, [4], none⟩) [2] false, .nl] =
    [97, 37, 123, 43, 48, 53, 125, 49, 124, 37, 123, 52, 125, 50, 10] := by decide

/-- C142: an argument in a space takes the space, and more only if it is longer
or gets a sign. -/
theorem C142_width (f : Fmt) (t : Text) :
    (f.pad t).length = max (value f.width) ((f.parts t).1.length + (f.parts t).2.length) ∧
    t.length ≤ (f.parts t).1.length + (f.parts t).2.length ∧
    (f.parts t).1.length + (f.parts t).2.length ≤ t.length + 1 ∧
    format (nfoOf f) t = f.pad t := by
  refine ⟨?_, ?_, ?_, format_pad f t⟩
  · unfold Fmt.pad
    cases f.sign <;> cases f.fill <;> simp <;> omega
  · unfold Fmt.parts
    cases t with
    | nil => simp
    | cons c r =>
      simp only
      by_cases h1 : c = 45
      · simp [h1]; omega
      · by_cases h2 : f.sign = some true
        · by_cases h3 : c = 43
          · simp [h2, h3]; omega
          · simp [h1, h2, h3]
        · simp [h1, h2]
  · unfold Fmt.parts
    cases t with
    | nil => simp only; split <;> simp
    | cons c r =>
      simp only
      by_cases h1 : c = 45
      · simp [h1]; omega
      · by_cases h2 : f.sign = some true
        · by_cases h3 : c = 43
          · simp [h2, h3]; omega
          · simp [h1, h2, h3]; omega
        · simp [h1, h2]

/-- C142, partial: without a pattern the arguments are written one after the
other if all of them are copied.  Missing: arguments that are referred to
(`C142_empty_violated`). -/
theorem C142_empty_partial (s s' : TF) (ts : List Text)
    (h : addAll (setPattern s []) (ts.map fun t => (true, t)) = some s') : (output s').1 = ts.flatten := by
  have key : ∀ (ts : List Text) (s s' : TF), addAll s (ts.map fun t => (true, t)) = some s' →
      s'.buff = s.buff ++ ts.flatten ∧ s'.pat = s.pat := by
    intro ts
    induction ts with
    | nil => intro s s' h; cases h; simp
    | cons t r ih =>
      intro s s' h
      simp only [List.map_cons] at h
      unfold addAll at h
      simp only [if_true] at h
      cases ha : addBuf s t with
      | none => rw [ha] at h; cases h
      | some u =>
        rw [ha] at h
        obtain ⟨h1, h2⟩ := ih u s' h
        unfold addBuf push at ha
        simp only at ha
        split at ha
        · cases ha
          exact ⟨by rw [h1]; simp, h2⟩
        · cases ha
  obtain ⟨h1, h2⟩ := key ts _ _ h
  unfold output
  rw [h1, h2]
  simp [setPattern]

/-- C142 violated: without a pattern a text that is referred to is lost. -/
theorem C142_empty_violated : ∃ s', addAll (setPattern ⟨[], [], [], [10]⟩ []) [(false, [65]), (true, [66])] = some s' ∧
    (output s').1 = [66] := ⟨_, rfl, by decide⟩

/-- The output for a pattern and arguments. -/
def run (p : Text) (ops : List (Bool × Text)) : Option Text :=
  (addAll (setPattern ⟨[], [], [], [10]⟩ p) ops).map fun s => (output s).1

/-- C142 violated: of two arguments side by side, `%1%2`, the second is taken for
a character. -/
theorem C142_adjacent_violated :
    texts [.arg none [1] false, .arg none [2] false] = [37, 49, 37, 50] ∧
    run [37, 49, 37, 50] [(false, [65]), (false, [66])] = some [65, 50] ∧
    [Item.arg none [1] false, .arg none [2] false].flatMap (Item.mean [10] [[65], [66]]) = [65, 66] := by
  refine ⟨by decide, by decide, by decide⟩

/-- C142 violated: the description promises `%{/reg-exp/text}N`; the text is
written whatever the argument is, with what is behind it. -/
theorem C142_conditional_violated (t : Text) :
    run [37, 123, 47, 97, 47, 120, 125, 49] [(false, t)] = some [47, 120, 125, 49] := by
  rfl

/-- C142 violated: a wide character is cut to eight bits, so `ı` (U+0131) as the
filling is taken for the digit one. -/
theorem C142_wide_violated :
    run [37, 123, 305, 53, 125, 49] [(false, [55])] = some ([55] ++ List.replicate 14 32) ∧
    Fmt.pad ⟨none, some 305, [5], none⟩ [55] = [305, 305, 305, 305, 55] := by decide

/-- C142 violated: a number beyond the machine word is another number. -/
theorem C142_number_violated :
    run [37, 49, 56, 52, 52, 54, 55, 52, 52, 48, 55, 51, 55, 48, 57, 53, 53, 49, 54, 49, 55] [(false, [65])] = some [65] ∧
    argText [[65]] (value [1, 8, 4, 4, 6, 7, 4, 4, 0, 7, 3, 7, 0, 9, 5, 5, 1, 6, 1, 7]) = [] := by
  refine ⟨by decide, ?_⟩
  simp [argText, value]

end LS.TextFmt

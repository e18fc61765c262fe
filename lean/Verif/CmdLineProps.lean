import Verif.CmdLine
import Verif.NumTextProps
/-!
# Properties of `CmdLineIterator` (C128)
-/

namespace LS.CmdLine

namespace Spec

/-- What an argument means: `--name`, `-abc` (three switches), or a text (also `-` and the empty argument). -/
def items : List Nat → List Item
  | 45 :: 45 :: r => [.long r]
  | 45 :: c :: r => (c :: r).map fun x => .short [x]
  | l => [.text l]

end Spec

example : Spec.items [45, 45, 97, 98] = [.long [97, 98]] ∧ Spec.items [45, 97, 98] = [.short [97], .short [98]] ∧ Spec.items [45] = [.text [45]] ∧ Spec.items [] = [.text []] := by decide

theorem items_short {c : Nat} {r : List Nat} (h : c ≠ 45) : Spec.items (45 :: c :: r) = (c :: r).map fun x => .short [x] := by
  unfold Spec.items
  split
  · next h' => injection h' with _ h'; injection h' with h' _; exact absurd h' h
  · next h' => injection h' with _ h'; rw [h']
  · next h' => exact absurd rfl (h' c r)

theorem items_text {l : List Nat} (h : ∀ c r, l ≠ 45 :: c :: r) : Spec.items l = [.text l] := by
  unfold Spec.items
  split
  · next r => exact absurd rfl (h 45 r)
  · next c r _ => exact absurd rfl (h c r)
  · rfl

/-- The items that are still to come. -/
def pending (i : It) : List Item :=
  if i.charPos = 0 then (i.args.drop i.argPos).flatMap fun a => Spec.items a.chars
  else match i.args[i.argPos]? with
    | none => []
    | some a => ((a.chars.drop i.charPos).map fun x => .short [x]) ++ (i.args.drop (i.argPos + 1)).flatMap fun a => Spec.items a.chars

/-- Positions that occur: at the begin of an argument, or among short switches. -/
def Good (i : It) : Prop := i.charPos = 0 ∨ ∃ a c r, i.args[i.argPos]? = some a ∧ a.chars = 45 :: c :: r ∧ c ≠ 45 ∧ 2 ≤ i.charPos ∧ i.charPos < a.chars.length

/-- Behind an empty argument there is something to read. -/
def Readable (args : List Arg) : Prop := ∀ a, a ∈ args → a.chars = [] → a.behind ≠ none

theorem peek_some {i : It} {a : Arg} (h : i.args[i.argPos]? = some a) : peek i = peekArg a i.charPos := by
  unfold peek
  rw [h]

/-- `peek` at the begin of an argument. -/
theorem peek_begin {i : It} {a : Arg} (h : i.args[i.argPos]? = some a) (hz : i.charPos = 0) (hr : a.chars = [] → a.behind ≠ none) :
    (∃ r, a.chars = 45 :: 45 :: r ∧ peek i = .ok (.long r)) ∨ (∃ c r, c ≠ 45 ∧ a.chars = 45 :: c :: r ∧ peek i = .ok (.short [c])) ∨
    ((∀ c r, a.chars ≠ 45 :: c :: r) ∧ peek i = .ok (.text a.chars)) := by
  obtain ⟨chars, behind⟩ := a
  cases chars with
  | nil =>
    refine Or.inr (Or.inr ⟨fun c r e => (by cases e), ?_⟩)
    rw [peek_some h, hz]
    cases behind with
    | none => exact absurd rfl (hr rfl)
    | some b =>
      simp [peekArg, Arg.at]
  | cons x l =>
    by_cases hx : x = 45
    · subst hx
      cases l with
      | nil =>
        refine Or.inr (Or.inr ⟨fun c r e => (by cases e), ?_⟩)
        rw [peek_some h, hz]
        rfl
      | cons c r =>
        by_cases hc : c = 45
        · subst hc
          refine Or.inl ⟨r, rfl, ?_⟩
          rw [peek_some h, hz]
          simp [peekArg, Arg.at]
        · refine Or.inr (Or.inl ⟨c, r, hc, rfl, ?_⟩)
          rw [peek_some h, hz]
          simp [peekArg, Arg.at, hc, mid]
    · refine Or.inr (Or.inr ⟨fun c r e => (by injection e with e; exact hx e), ?_⟩)
      rw [peek_some h, hz]
      simp [peekArg, Arg.at, hx]

theorem drop_cons {args : List Arg} {n : Nat} {a : Arg} (h : args[n]? = some a) : args.drop n = a :: args.drop (n + 1) := by
  obtain ⟨hn, rfl⟩ := List.getElem?_eq_some_iff.mp h
  exact List.drop_eq_getElem_cons hn

/-- C128: one `getNext` gives the first item to come, what is left are the others, and the position grew. -/
theorem C128_next {i : It} (hg : Good i) (hr : Readable i.args) (hh : hasItems i = true) :
    ∃ x i', getNext i = .ok (x, i') ∧ pending i = x :: pending i' ∧ Good i' ∧ i'.args = i.args ∧ lessThan i i' = true := by
  have hlt : i.argPos < i.args.length := by simpa [hasItems] using hh
  obtain ⟨a, ha⟩ : ∃ a, i.args[i.argPos]? = some a := ⟨_, List.getElem?_eq_getElem hlt⟩
  have hm : a ∈ i.args := List.mem_of_getElem? ha
  have next : ∀ x, pending { i with argPos := i.argPos + 1, charPos := 0 } = x → lessThan i { i with argPos := i.argPos + 1, charPos := 0 } = true := by
    intro _ _
    simp [lessThan]
  have pend : pending { i with argPos := i.argPos + 1, charPos := 0 } = (i.args.drop (i.argPos + 1)).flatMap fun a => Spec.items a.chars := by
    unfold pending
    rw [if_pos rfl]
  have cl : curLen i = a.chars.length := by
    unfold curLen
    rw [ha]
  rcases hg with hz | ⟨a', c, r, ha', hc, hne, h2, hlen⟩
  · have hp : pending i = Spec.items a.chars ++ (i.args.drop (i.argPos + 1)).flatMap fun a => Spec.items a.chars := by
      unfold pending
      rw [if_pos hz, drop_cons ha]
      rfl
    rcases peek_begin ha hz (hr a hm) with ⟨r, hc, hk⟩ | ⟨c, r, hne, hc, hk⟩ | ⟨hc, hk⟩
    · refine ⟨.long r, { i with argPos := i.argPos + 1, charPos := 0 }, by unfold getNext; rw [hk], ?_, Or.inl rfl, rfl, by simp [lessThan]⟩
      rw [hp, pend, hc]
      rfl
    · have e : getNext i = if 2 ≥ curLen i then .ok (.short [c], { i with argPos := i.argPos + 1, charPos := 0 }) else .ok (.short [c], { i with charPos := 2 }) := by
        unfold getNext
        rw [hk]
        simp only [hz, if_true, Nat.zero_add]
      rw [cl, hc] at e
      rw [hc, items_short hne] at hp
      cases r with
      | nil =>
        refine ⟨.short [c], { i with argPos := i.argPos + 1, charPos := 0 }, by rw [e]; rfl, ?_, Or.inl rfl, rfl, by simp [lessThan]⟩
        rw [hp, pend]
        rfl
      | cons d r =>
        rw [if_neg (by simp)] at e
        refine ⟨.short [c], { i with charPos := 2 }, e, ?_, Or.inr ⟨a, c, d :: r, ha, hc, hne, Nat.le_refl 2, by rw [hc]; simp⟩, rfl, by simp [lessThan, hz]⟩
        have : pending { i with charPos := 2 } = ((a.chars.drop 2).map fun x => .short [x]) ++ (i.args.drop (i.argPos + 1)).flatMap fun a => Spec.items a.chars := by
          unfold pending
          rw [if_neg (by simp)]
          simp only [ha]
        rw [hp, this, hc]
        rfl
    · refine ⟨.text a.chars, { i with argPos := i.argPos + 1, charPos := 0 }, by unfold getNext; rw [hk], ?_, Or.inl rfl, rfl, by simp [lessThan]⟩
      rw [hp, pend, items_text hc]
      rfl
  · have haa : a' = a := by
      rw [ha] at ha'
      injection ha' with h
      exact h.symm
    subst haa
    have hz : i.charPos ≠ 0 := by omega
    have hd : a'.chars.drop i.charPos = a'.chars[i.charPos] :: a'.chars.drop (i.charPos + 1) := List.drop_eq_getElem_cons hlen
    have hp : pending i = .short [a'.chars[i.charPos]] :: (((a'.chars.drop (i.charPos + 1)).map fun x => Item.short [x]) ++ (i.args.drop (i.argPos + 1)).flatMap fun a => Spec.items a.chars) := by
      unfold pending
      rw [if_neg hz]
      simp only [ha]
      rw [hd]
      rfl
    have hk : peek i = .ok (.short [a'.chars[i.charPos]]) := by
      rw [peek_some ha]
      unfold peekArg mid
      rw [if_neg hz]
      rw [hd]
      rfl
    have e : getNext i = if i.charPos + 1 ≥ curLen i then .ok (.short [a'.chars[i.charPos]], { i with argPos := i.argPos + 1, charPos := 0 }) else .ok (.short [a'.chars[i.charPos]], { i with charPos := i.charPos + 1 }) := by
      unfold getNext
      rw [hk]
      simp only [if_neg hz]
    rw [cl] at e
    by_cases hl : i.charPos + 1 ≥ a'.chars.length
    · rw [if_pos hl] at e
      refine ⟨_, { i with argPos := i.argPos + 1, charPos := 0 }, e, ?_, Or.inl rfl, rfl, by simp [lessThan]⟩
      rw [hp, pend, List.drop_eq_nil_of_le hl]
      rfl
    · rw [if_neg hl] at e
      refine ⟨_, { i with charPos := i.charPos + 1 }, e, ?_, Or.inr ⟨a', c, r, ha, hc, hne, by show 2 ≤ i.charPos + 1; omega, by show i.charPos + 1 < _; omega⟩, rfl, by simp [lessThan]⟩
      have : pending { i with charPos := i.charPos + 1 } = ((a'.chars.drop (i.charPos + 1)).map fun x => .short [x]) ++ (i.args.drop (i.argPos + 1)).flatMap fun a => Spec.items a.chars := by
        unfold pending
        rw [if_neg (by simp)]
        simp only [ha]
      rw [hp, this]

theorem pending_end {i : It} (hh : hasItems i = false) : pending i = [] := by
  have hge : i.args.length ≤ i.argPos := by simpa [hasItems] using hh
  unfold pending
  split
  · rw [List.drop_eq_nil_of_le hge]
    rfl
  · rw [List.getElem?_eq_none hge]

theorem readAll_pending : ∀ (n : Nat) (i : It), Good i → Readable i.args → (pending i).length ≤ n → ∃ i', readAll n i = .ok (pending i, i') ∧ hasItems i' = false ∧ i'.args = i.args := by
  intro n
  induction n with
  | zero =>
    intro i hg hr hl
    have hn : pending i = [] := List.length_eq_zero_iff.mp (Nat.le_zero.mp hl)
    cases hh : hasItems i with
    | false => exact ⟨i, by rw [hn]; rfl, hh, rfl⟩
    | true =>
      obtain ⟨x, i', _, hp, _⟩ := C128_next hg hr hh
      rw [hn] at hp
      cases hp
  | succ n ih =>
    intro i hg hr hl
    cases hh : hasItems i with
    | false =>
      refine ⟨i, ?_, hh, rfl⟩
      rw [pending_end hh]
      unfold readAll
      rw [hh]
      rfl
    | true =>
      obtain ⟨x, i', hn, hp, hg', ha, _⟩ := C128_next hg hr hh
      rw [hp] at hl
      obtain ⟨i'', hr', he, ha'⟩ := ih i' hg' (by rw [ha]; exact hr) (Nat.le_of_succ_le_succ hl)
      refine ⟨i'', ?_, he, by rw [ha', ha]⟩
      unfold readAll
      rw [if_pos hh, hn]
      simp only [hr']
      rw [hp]

/-- C128: the iterator gives the items of the arguments from `offset` on, in order, and ends. -/
theorem C128_items (args : List Arg) (offset : Nat) (hr : Readable args) :
    ∃ n i', readAll n (mk args offset) = .ok ((args.drop offset).flatMap (fun a => Spec.items a.chars), i') ∧ hasItems i' = false := by
  have hp : pending (mk args offset) = (args.drop offset).flatMap (fun a => Spec.items a.chars) := by
    unfold pending mk
    rw [if_pos rfl]
  obtain ⟨i', h1, h2, _⟩ := readAll_pending _ (mk args offset) (Or.inl rfl) hr (Nat.le_refl _)
  exact ⟨_, i', by rw [h1, hp], h2⟩

/-- C128: as long as there are items. -/
theorem C128_end (i : It) : hasItems i = false → getNext i = .error .noItems ∧ getNextText i = .error .noItems := by
  intro hh
  have hge : i.args.length ≤ i.argPos := by simpa [hasItems] using hh
  unfold getNext peek getNextText peekText
  rw [List.getElem?_eq_none hge]
  exact ⟨rfl, rfl⟩

/-- C128 `getNextText`: at the begin of an argument it is the argument; among short switches it is the part of the argument with the switches
that are not read yet (`-ofile`); the next argument follows. -/
theorem C128_text {i : It} {a : Arg} (ha : i.args[i.argPos]? = some a) (hg : Good i) :
    ∃ t i', getNextText i = .ok (t, i') ∧ Good i' ∧ i'.args = i.args ∧ lessThan i i' = true ∧ pending i' = (i.args.drop (i.argPos + 1)).flatMap (fun a => Spec.items a.chars) ∧
      (i.charPos = 0 → t = a.chars) ∧ (i.charPos ≠ 0 → pending i = t.map (fun x => .short [x]) ++ pending i' ∧ t ≠ []) := by
  have pend : pending { i with argPos := i.argPos + 1, charPos := 0 } = (i.args.drop (i.argPos + 1)).flatMap fun a => Spec.items a.chars := by
    unfold pending
    rw [if_pos rfl]
  refine ⟨a.chars.drop i.charPos, { i with argPos := i.argPos + 1, charPos := 0 }, by unfold getNextText peekText; rw [ha], Or.inl rfl, rfl, by simp [lessThan], pend, fun hz => by rw [hz]; rfl, fun hz => ⟨?_, ?_⟩⟩
  · rw [pend]
    unfold pending
    rw [if_neg hz]
    simp only [ha]
  · rcases hg with h | ⟨a', c, r, ha', _, _, _, hl⟩
    · exact absurd h hz
    · rw [ha] at ha'
      injection ha' with h
      subst h
      intro e
      have := List.drop_eq_nil_iff.mp e
      omega

/-- C128 `getNextNumber`: an argument that is a number is read as this number; what is no number at all is reported. -/
theorem C128_number_partial {i : It} {a : Arg} {v : Int} (base : Nat) (ha : i.args[i.argPos]? = some a) (hv : NumText.Spec.valueS base (a.chars.drop i.charPos) = some v) (hl : -2 ^ 63 < v) (hu : v < 2 ^ 63) :
    getNextNumber i base = .ok (v, { i with argPos := i.argPos + 1, charPos := 0 }) := by
  have h := NumText.c93_parse_integer_partial (rest := []) (fun x l d e => by cases e) hv hl hu
  rw [List.append_nil] at h
  unfold getNextNumber getNextText peekText
  rw [ha]
  simp only [h]

/-- C128: a text that does not begin with a digit or a sign is reported. -/
theorem C128_number_format {i : It} {a : Arg} {x : Nat} {l : List Nat} (base : Nat) (ha : i.args[i.argPos]? = some a) (ht : a.chars.drop i.charPos = x :: l) (hx : x < 256) (hd : NumText.Spec.letter x = none) (h1 : x ≠ 43) (h2 : x ≠ 45) :
    getNextNumber i base = .error .format := by
  have hm : x % 256 = x := Nat.mod_eq_of_lt hx
  have h : NumText.digitOf x = none := by
    unfold NumText.Spec.letter at hd
    unfold NumText.digitOf
    simp only [hm]
    split at hd <;> try cases hd
    split at hd <;> try cases hd
    split at hd <;> try cases hd
    rw [if_neg (by omega), if_neg (by omega), if_neg (by omega)]
  unfold getNextNumber getNextText peekText
  rw [ha]
  simp [ht, NumText.parseS, NumText.parseUI, NumText.parseU, NumText.parseLoop, h, hm, h1, h2]

/-- C128 fails: a text that only begins with a number is taken. -/
theorem C128_number_violated : ∃ i, NumText.Spec.valueS 10 [49, 50, 120] = none ∧ peekText i = .ok [49, 50, 120] ∧ ∃ i', getNextNumber i 10 = .ok (12, i') :=
  ⟨mk [⟨[49, 50, 120], some 0⟩] 0, by decide, rfl, ⟨[⟨[49, 50, 120], some 0⟩], 1, 0⟩, rfl⟩

/-- C128 `getRemainArgs` at the begin of an argument: what a new iterator over them reads is what is still to come. Missing: among
short switches. -/
theorem C128_remain_partial {i : It} (hz : i.charPos = 0) : pending (mk (getRemainArgs i) 0) = pending i := by
  unfold pending mk getRemainArgs
  rw [if_pos rfl, if_pos hz]
  rfl

/-- C128 fails: among short switches, `getRemainArgs` gives the argument with the switches that were read already. -/
theorem C128_remain_violated : ∃ args i x, getNext (mk args 0) = .ok (x, i) ∧ x = .short [97] ∧ pending i = [.short [98]] ∧ pending (mk (getRemainArgs i) 0) = [.short [97], .short [98]] :=
  ⟨[⟨[45, 97, 98], some 0⟩], ⟨[⟨[45, 97, 98], some 0⟩], 0, 2⟩, .short [97], rfl, rfl, by decide, by decide⟩

/-- C128 fails: the first character is looked at before the length; an empty argument that nothing follows in memory is undefined behaviour. -/
theorem C128_empty_violated : ∃ args, (args.drop 0).flatMap (fun a : Arg => Spec.items a.chars) = [.text []] ∧ getNext (mk args 0) = .error .ub := ⟨[⟨[], none⟩], by decide, rfl⟩

/-- C128: `lessThan` is a strict total order of positions, with `equalTo` as its equality. -/
theorem C128_order (i j k : It) : lessThan i i = false ∧ (lessThan i j = true → lessThan j k = true → lessThan i k = true) ∧
    (equalTo i j = true ↔ lessThan i j = false ∧ lessThan j i = false) ∧ (i.args = j.args → (equalTo i j = true ↔ i = j)) := by
  unfold lessThan equalTo
  refine ⟨by simp, fun h1 h2 => ?_, ?_, fun ha => ?_⟩
  · simp at h1 h2 ⊢
    omega
  · simp
    omega
  · obtain ⟨_, _, _⟩ := i
    obtain ⟨_, _, _⟩ := j
    simp at ha ⊢
    simp [ha]

/-- `prog -ab --all x -`. -/
example : readAll 9 (mk [⟨[112], some 0⟩, ⟨[45, 97, 98], some 0⟩, ⟨[45, 45, 97], some 0⟩, ⟨[120], some 0⟩, ⟨[45], some 0⟩] 1) =
    .ok ([.short [97], .short [98], .long [97], .text [120], .text [45]], ⟨[⟨[112], some 0⟩, ⟨[45, 97, 98], some 0⟩, ⟨[45, 45, 97], some 0⟩, ⟨[120], some 0⟩, ⟨[45], some 0⟩], 5, 0⟩) := rfl

/-- `-ofile`: the switch, then its text. -/
example : ∃ i, getNext (mk [⟨[45, 111, 102, 103], some 0⟩, ⟨[120], some 0⟩] 0) = .ok (.short [111], i) ∧ getNextText i = .ok ([102, 103], ⟨[⟨[45, 111, 102, 103], some 0⟩, ⟨[120], some 0⟩], 1, 0⟩) :=
  ⟨⟨[⟨[45, 111, 102, 103], some 0⟩, ⟨[120], some 0⟩], 0, 2⟩, rfl, rfl⟩

end LS.CmdLine

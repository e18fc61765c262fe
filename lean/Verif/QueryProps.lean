import Verif.Query
import Verif.UrlEncodeProps
/-
C104: fields of a query; C105: items of the command line.
-/
namespace LS.Query
open UrlEncode (percent)

/-! ## C104 -/

/-- Text of an address: path, `?`, and `name=value` separated by `&`, values encoded. -/
def compose (p : List Nat) : List (List Nat × List Nat) → List Nat
  | [] => p
  | f :: fs => p ++ 63 :: (f.1 ++ 61 :: percent f.2) ++ fs.flatMap fun f => 38 :: (f.1 ++ 61 :: percent f.2)

theorem cut_app {c : Nat} : ∀ {l r : List Nat}, c ∉ l → cut c (l ++ c :: r) = some (l, r)
  | [], r, _ => by simp [cut]
  | x :: l, r, h => by
    simp only [List.mem_cons, not_or] at h
    rw [List.cons_append, cut, if_neg (fun e => h.1 e.symm), cut_app h.2]
    rfl

theorem cut_none {c : Nat} : ∀ {l : List Nat}, c ∉ l → cut c l = none
  | [], _ => rfl
  | x :: l, h => by
    simp only [List.mem_cons, not_or] at h
    rw [cut, if_neg (fun e => h.1 e.symm), cut_none h.2]
    rfl

theorem parts_ne {c : Nat} : ∀ (l : List Nat), parts c l ≠ []
  | [] => by simp [parts]
  | x :: l => by
    rw [parts]
    split
    · simp
    · split <;> simp

theorem parts_app {c : Nat} : ∀ {l r : List Nat}, c ∉ l → parts c (l ++ c :: r) = l :: parts c r
  | [], r, _ => by simp [parts]
  | x :: l, r, h => by
    simp only [List.mem_cons, not_or] at h
    rw [List.cons_append, parts, if_neg (fun e => h.1 e.symm), parts_app h.2]

theorem parts_one {c : Nat} : ∀ {l : List Nat}, c ∉ l → parts c l = [l]
  | [], _ => rfl
  | x :: l, h => by
    simp only [List.mem_cons, not_or] at h
    rw [parts, if_neg (fun e => h.1 e.symm), parts_one h.2]

theorem parts_join {c : Nat} : ∀ {p : List Nat} {ps : List (List Nat)}, c ∉ p → (∀ q, q ∈ ps → c ∉ q) →
    parts c (p ++ ps.flatMap fun q => c :: q) = p :: ps
  | p, [], h, _ => by simpa using parts_one h
  | p, q :: ps, h, hq => by
    rw [List.flatMap_cons, List.cons_append, parts_app h, parts_join (hq q (by simp)) (fun r hr => hq r (by simp [hr]))]

/-- What a part that is not empty stands for. -/
def fieldOf (itm : List Nat) : Field :=
  match cut 61 itm with
  | none => ⟨itm, decode [49]⟩
  | some (f, v) => ⟨f, decode v⟩

theorem preload_cons {slot : Bool → Field} {h swp : Bool} {itm : List Nat} {rest : List (List Nat)} (hi : itm ≠ []) :
    preload slot h swp (itm :: rest) = (QP.mk rest slot h swp).store (!swp) (fieldOf itm) := by
  rw [preload]
  unfold fieldOf
  cases e : cut 61 itm with
  | none => simp only [if_neg hi]
  | some p => rfl

theorem preload_slot (slot : Bool → Field) (h swp : Bool) : ∀ its, (preload slot h swp its).slot swp = slot swp
  | [] => rfl
  | itm :: rest => by
    have ih := preload_slot slot h swp rest
    rw [preload]
    cases cut 61 itm with
    | none =>
      simp only
      split
      · simp only [QP.store]
        rw [if_neg (by cases swp <;> decide)]
        exact ih
      · simp only [QP.store]
        rw [if_neg (by cases swp <;> decide)]
    | some p =>
      simp only [QP.store]
      rw [if_neg (by cases swp <;> decide)]

theorem all_eq : ∀ (its : List (List Nat)) (n : Nat) (slot : Bool → Field) (h swp : Bool), (∀ i, i ∈ its → i ≠ []) →
    its.length < n → (preload slot h swp its).all n = its.map fieldOf
  | [], 0, _, _, _, _, hn => absurd hn (by simp)
  | [], n + 1, _, _, _, _, _ => rfl
  | itm :: rest, 0, _, _, _, _, hn => absurd hn (by simp)
  | itm :: rest, n + 1, slot, h, swp, hi, hn => by
    rw [preload_cons (hi itm (by simp)), QP.all, if_pos (show ((QP.mk rest slot h swp).store (!swp) (fieldOf itm)).hasNext = true from rfl)]
    have e : ((QP.mk rest slot h swp).store (!swp) (fieldOf itm)).getNext =
        (fieldOf itm, preload (fun i => if i = !swp then fieldOf itm else slot i) true (!swp) rest) := by
      unfold QP.getNext QP.store
      simp only
      rw [preload_slot]
      simp
    rw [e, List.map_cons]
    simp only
    rw [all_eq rest n _ _ _ (fun i hi' => hi i (by simp [hi'])) (by simp at hn; omega)]

theorem percent_no {bs : List Nat} (hb : Bytes bs) {c : Nat} (h1 : ¬ UrlEncode.Unreserved c) (h2 : c ≠ 37)
    (h3 : ¬ UrlEncode.HexDigit c) : c ∉ percent bs := by
  have := UrlEncode.percent_safe hb
  generalize percent bs = t at this
  induction this with
  | nil => simp
  | plain hu _ ih =>
    simp only [List.mem_cons, not_or]
    exact ⟨fun e => h1 (e ▸ hu), ih⟩
  | triplet ha hb' _ ih =>
    simp only [List.mem_cons, not_or]
    exact ⟨h2, fun e => h3 (e ▸ ha), fun e => h3 (e ▸ hb'), ih⟩

/-- C104 — a query composed of one or more fields is parsed to exactly these fields, in their
order, with values decoded; the path is that of the address.  Partial: at least one field, and
no empty parts between `&`. -/
theorem C104_fields_partial {p : List Nat} {f : List Nat × List Nat} {fs : List (List Nat × List Nat)} (hp : 63 ∉ p)
    (hn : ∀ g, g ∈ f :: fs → 61 ∉ g.1 ∧ 38 ∉ g.1 ∧ Bytes g.2) {n : Nat} (h : (f :: fs).length < n) :
    path (compose p (f :: fs)) = p ∧
    (QP.ctor (compose p (f :: fs))).all n = (f :: fs).map fun g => ⟨g.1, some g.2⟩ := by
  have e1 : compose p (f :: fs) = p ++ 63 :: ((f.1 ++ 61 :: percent f.2) ++ (fs.map fun g => g.1 ++ 61 :: percent g.2).flatMap fun q => 38 :: q) := by
    simp [compose, List.flatMap_map]
  have hc : ∀ g, g ∈ f :: fs → 38 ∉ g.1 ++ 61 :: percent g.2 := by
    intro g hg
    obtain ⟨g1, g2, g3⟩ := hn g hg
    simp only [List.mem_append, List.mem_cons, not_or]
    exact ⟨g2, by decide, percent_no g3 (by decide) (by decide) (by unfold UrlEncode.HexDigit; decide)⟩
  have hf : ∀ g, g ∈ f :: fs → fieldOf (g.1 ++ 61 :: percent g.2) = ⟨g.1, some g.2⟩ := by
    intro g hg
    obtain ⟨g1, g2, g3⟩ := hn g hg
    unfold fieldOf
    rw [cut_app g1]
    simp only [Field.mk.injEq, true_and]
    exact UrlEncode.dec_run 2 g.2 none none none g3
  have hpath : path (compose p (f :: fs)) = p := by
    rw [e1, path, cut_app hp]
  refine ⟨hpath, ?_⟩
  have hq : query (compose p (f :: fs)) = (f.1 ++ 61 :: percent f.2) ++ (fs.map fun g => g.1 ++ 61 :: percent g.2).flatMap fun q => 38 :: q := by
    unfold query
    rw [hpath, e1]
    simp
  unfold QP.ctor
  rw [hq, parts_join (hc f (by simp))]
  · rw [all_eq _ _ _ _ _ _ (by simpa using h)]
    · simp only [List.map_cons, List.map_map]
      rw [hf f (by simp)]
      congr 1
      apply List.map_congr_left
      intro g hg
      exact hf g (by simp [hg])
    · intro i hi
      rcases List.mem_cons.mp hi with e | e
      · rw [e]; simp
      · obtain ⟨g, _, e⟩ := List.mem_map.mp e
        rw [← e]; simp
  · intro q hq
    obtain ⟨g, hg, e⟩ := List.mem_map.mp hq
    rw [← e]
    exact hc g (by simp [hg])

/-- Concrete case: `/x?a=1&b=%20` -/
example : (QP.ctor (compose [47, 120] [([97], [49]), ([98], [32])])).all 9 = [⟨[97], some [49]⟩, ⟨[98], some [32]⟩] := by
  decide +kernel

/-- C104 — any query without empty parts: a part without `=` is a field of value `1`. -/
theorem C104_parts_partial {q : List Nat} (h : ∀ i, i ∈ parts 38 q → i ≠ []) {n : Nat} (hn : (parts 38 q).length < n)
    {p : List Nat} (hp : 63 ∉ p) :
    (QP.ctor (p ++ 63 :: q)).all n = (parts 38 q).map fieldOf := by
  have hpath : path (p ++ 63 :: q) = p := by rw [path, cut_app hp]
  have hq : query (p ++ 63 :: q) = q := by unfold query; rw [hpath]; simp
  unfold QP.ctor
  rw [hq]
  exact all_eq _ _ _ _ _ h hn

/-- C104 — the full claim: empty parts stand for nothing. -/
def Claim104 : Prop := ∀ (p q : List Nat), 63 ∉ p → ∀ n, (parts 38 q).length < n →
  (QP.ctor (p ++ 63 :: q)).all n = ((parts 38 q).filter (· ≠ [])).map fieldOf

/-- C104 — violated (queryParser.cpp:66): after an empty part the following field is lost, an empty
one is in its place: `?a=1&&b=2`. -/
theorem C104_violated : ¬ Claim104 := by
  intro h
  have := h [] [97, 61, 49, 38, 38, 98, 61, 50] (by decide) 9 (by decide)
  revert this
  decide +kernel

/-- C104 — violated: an address without query has a field. -/
theorem C104_empty_violated : ∀ p, 63 ∉ p → (QP.ctor p).hasNext = true := by
  intro p hp
  have e : path p = p := by rw [path, cut_none hp]
  have : query p = [] := by unfold query; rw [e]; simp
  unfold QP.ctor
  rw [this]
  rfl

/-! ## C105 -/

/-- Items an argument stands for: `-abc` is three switches, `--abc` is one, anything else and `-`
are text. -/
inductive Means : List Nat → List Item → Prop
  | long (s : List Nat) : Means (45 :: 45 :: s) [.long s]
  | short (c : Nat) (l : List Nat) (h : c ≠ 45) : Means (45 :: c :: l) ((c :: l).map fun x => .short [x])
  | dash : Means [45] [.text [45]]
  | text (c : Nat) (l : List Nat) (h : c ≠ 45) : Means (c :: l) [.text (c :: l)]

/-- Items of arguments one after another. -/
inductive MeansAll : List (List Nat) → List Item → Prop
  | nil : MeansAll [] []
  | cons {a : List Nat} {as : List (List Nat)} {i is : List Item} : Means a i → MeansAll as is → MeansAll (a :: as) (i ++ is)

theorem all_short (pre : List (List Nat)) (as : List (List Nat)) : ∀ (l b : List Nat) (n : Nat) (r : List Item), b ≠ [] →
    2 ≤ b.length → l ≠ [] →
    Cmd.all n ⟨pre ++ (b ++ l) :: as, pre.length + 1, 0⟩ = .ok r →
    Cmd.all (l.length + n) ⟨pre ++ (b ++ l) :: as, pre.length, b.length⟩ = .ok ((l.map fun x => .short [x]) ++ r)
  | [], _, _, _, _, _, h, _ => absurd rfl h
  | x :: l, b, n, r, hb, h2, _, hr => by
    have e1 : (pre ++ (b ++ x :: l) :: as)[pre.length]? = some (b ++ x :: l) := by simp
    have e2 : (pre ++ (b ++ x :: l) :: as).getD pre.length [] = b ++ x :: l := by
      rw [List.getD_eq_getElem?_getD, e1]; rfl
    have e3 : (b ++ x :: l).drop b.length = x :: l := by simp
    have e4 : b.length ≠ 0 := by omega
    have e5 : (x :: l).length + n = (l.length + n) + 1 := by simp only [List.length_cons]; omega
    rw [e5, Cmd.all]
    have hh : Cmd.hasItems ⟨pre ++ (b ++ x :: l) :: as, pre.length, b.length⟩ = true := by
      simp [Cmd.hasItems]
    rw [if_pos hh]
    have hp : Cmd.peek ⟨pre ++ (b ++ x :: l) :: as, pre.length, b.length⟩ = .ok (.short [x]) := by
      unfold Cmd.peek
      simp only [e1, if_neg e4, e3]
      rfl
    cases l with
    | nil =>
      have hg : Cmd.getNext ⟨pre ++ (b ++ [x]) :: as, pre.length, b.length⟩ =
          .ok (.short [x], ⟨pre ++ (b ++ [x]) :: as, pre.length + 1, 0⟩) := by
        unfold Cmd.getNext
        simp only [hp, if_neg e4, e2]
        rw [if_pos (by simp)]
      rw [hg]
      simp only [List.length_nil, Nat.zero_add, hr]
      rfl
    | cons y l =>
      have hg : Cmd.getNext ⟨pre ++ (b ++ x :: y :: l) :: as, pre.length, b.length⟩ =
          .ok (.short [x], ⟨pre ++ (b ++ x :: y :: l) :: as, pre.length, b.length + 1⟩) := by
        unfold Cmd.getNext
        simp only [hp, if_neg e4, e2]
        rw [if_neg (by simp)]
      rw [hg]
      have ih := all_short pre as (y :: l) (b ++ [x]) n r (by simp) (by simp; omega) (by simp)
      simp only [List.append_assoc, List.cons_append, List.nil_append, List.length_append, List.length_cons, List.length_nil, Nat.zero_add] at ih
      simp only [List.length_cons]
      rw [ih hr]
      rfl

theorem cmd_all : ∀ (as : List (List Nat)) (is : List Item), MeansAll as is → ∀ (pre : List (List Nat)) (n : Nat),
    is.length < n → Cmd.all n ⟨pre ++ as, pre.length, 0⟩ = .ok is
  | [], _, .nil, pre, 0, hn => absurd hn (by simp)
  | [], _, .nil, pre, n + 1, _ => by
    rw [Cmd.all, if_neg (by simp [Cmd.hasItems])]
  | a :: as, _, .cons (i := i) (is := is) m ms, pre, 0, hn => absurd hn (by omega)
  | a :: as, _, .cons (i := i) (is := is) m ms, pre, n + 1, hn => by
    have ih := fun k (hk : is.length < k) => cmd_all as is ms (pre ++ [a]) k hk
    simp only [List.append_assoc, List.cons_append, List.nil_append, List.length_append, List.length_cons, List.length_nil, Nat.zero_add] at ih
    have e1 : (pre ++ a :: as)[pre.length]? = some a := by simp
    have e2 : (pre ++ a :: as).getD pre.length [] = a := by
      rw [List.getD_eq_getElem?_getD, e1]; rfl
    have hh : Cmd.hasItems ⟨pre ++ a :: as, pre.length, 0⟩ = true := by simp [Cmd.hasItems]
    rw [List.length_append] at hn
    rw [Cmd.all, if_pos hh]
    cases m with
    | long s =>
      have hg : Cmd.getNext ⟨pre ++ (45 :: 45 :: s) :: as, pre.length, 0⟩ = .ok (.long s, ⟨pre ++ (45 :: 45 :: s) :: as, pre.length + 1, 0⟩) := by
        simp [Cmd.getNext, Cmd.peek]
      rw [hg]
      simp only [List.length_cons, List.length_nil] at hn
      simp only [ih n (by omega)]
      rfl
    | dash =>
      have hg : Cmd.getNext ⟨pre ++ [45] :: as, pre.length, 0⟩ = .ok (.text [45], ⟨pre ++ [45] :: as, pre.length + 1, 0⟩) := by
        simp [Cmd.getNext, Cmd.peek]
      rw [hg]
      simp only [List.length_cons, List.length_nil] at hn
      simp only [ih n (by omega)]
      rfl
    | text c l h =>
      have hg : Cmd.getNext ⟨pre ++ (c :: l) :: as, pre.length, 0⟩ = .ok (.text (c :: l), ⟨pre ++ (c :: l) :: as, pre.length + 1, 0⟩) := by
        simp [Cmd.getNext, Cmd.peek, h]
      rw [hg]
      simp only [List.length_cons, List.length_nil] at hn
      simp only [ih n (by omega)]
      rfl
    | short c l h =>
      have hp : Cmd.peek ⟨pre ++ (45 :: c :: l) :: as, pre.length, 0⟩ = .ok (.short [c]) := by
        simp [Cmd.peek, h]
      simp only [List.map_cons, List.length_cons, List.length_map] at hn
      cases l with
      | nil =>
        have hg : Cmd.getNext ⟨pre ++ [45, c] :: as, pre.length, 0⟩ = .ok (.short [c], ⟨pre ++ [45, c] :: as, pre.length + 1, 0⟩) := by
          unfold Cmd.getNext
          simp only [hp, e2]
          simp
        rw [hg]
        simp only [List.length_nil] at hn
        simp only [ih n (by omega)]
        rfl
      | cons y l =>
        have hg : Cmd.getNext ⟨pre ++ (45 :: c :: y :: l) :: as, pre.length, 0⟩ = .ok (.short [c], ⟨pre ++ (45 :: c :: y :: l) :: as, pre.length, 2⟩) := by
          unfold Cmd.getNext
          simp only [hp, e2]
          simp
        rw [hg]
        simp only [List.length_cons] at hn
        have := all_short pre as (y :: l) [45, c] (n - (y :: l).length) is (by simp) (by simp) (by simp) (ih _ (by simp only [List.length_cons]; omega))
        simp only [List.cons_append, List.nil_append, List.length_cons, List.length_nil] at this
        rw [show l.length + 1 + (n - (l.length + 1)) = n from by omega] at this
        simp only [Nat.zero_add] at this
        simp only [this]
        rfl

/-- C105 — the iterator gives exactly the items the arguments stand for.  Partial: no argument
is empty (`MeansAll` says what every other argument means). -/
theorem C105_items_partial {as : List (List Nat)} {is : List Item} (h : MeansAll as is) {n : Nat} (hn : is.length < n) :
    Cmd.all n ⟨as, 0, 0⟩ = .ok is :=
  cmd_all as is h [] n hn

/-- Every list of arguments that are not empty means something. -/
theorem C105_total (as : List (List Nat)) (h : ∀ a, a ∈ as → a ≠ []) : ∃ is, MeansAll as is := by
  induction as with
  | nil => exact ⟨_, .nil⟩
  | cons a as ih =>
    obtain ⟨is, q⟩ := ih (fun b hb => h b (by simp [hb]))
    have ha := h a (by simp)
    match a with
    | [] => exact absurd rfl ha
    | [x] =>
      by_cases e : x = 45
      · subst e; exact ⟨_, .cons .dash q⟩
      · exact ⟨_, .cons (.text x [] e) q⟩
    | x :: y :: l =>
      by_cases e : x = 45
      · subst e
        by_cases f : y = 45
        · subst f; exact ⟨_, .cons (.long l) q⟩
        · exact ⟨_, .cons (.short y l f) q⟩
      · exact ⟨_, .cons (.text x (y :: l) e) q⟩

/-- C105 — parameter of a switch: after the first switch of an argument `-xREST` the text that
follows is `REST`, after a switch alone it is the next argument. -/
theorem C105_param (pre as : List (List Nat)) (c : Nat) (rest : List Nat) (h : c ≠ 45) :
    ∃ k, Cmd.getNext ⟨pre ++ (45 :: c :: rest) :: as, pre.length, 0⟩ = .ok (.short [c], k) ∧
      (rest ≠ [] → k.getNextText = .ok (rest, ⟨pre ++ (45 :: c :: rest) :: as, pre.length + 1, 0⟩)) ∧
      (rest = [] → ∀ b bs, as = b :: bs → k.getNextText = .ok (b, ⟨pre ++ (45 :: c :: rest) :: as, pre.length + 2, 0⟩)) := by
  have e1 : (pre ++ (45 :: c :: rest) :: as)[pre.length]? = some (45 :: c :: rest) := by simp
  have e2 : (pre ++ (45 :: c :: rest) :: as).getD pre.length [] = 45 :: c :: rest := by
    rw [List.getD_eq_getElem?_getD, e1]; rfl
  have hp : Cmd.peek ⟨pre ++ (45 :: c :: rest) :: as, pre.length, 0⟩ = .ok (.short [c]) := by
    simp [Cmd.peek, h]
  cases rest with
  | nil =>
    refine ⟨⟨pre ++ [45, c] :: as, pre.length + 1, 0⟩, ?_, fun q => absurd rfl q, ?_⟩
    · unfold Cmd.getNext
      simp only [hp, e2]
      simp
    · intro _ b bs e
      subst e
      have : (pre ++ [45, c] :: b :: bs)[pre.length + 1]? = some b := by
        rw [List.getElem?_append_right (by omega)]
        simp
      simp [Cmd.getNextText]
  | cons y l =>
    refine ⟨⟨pre ++ (45 :: c :: y :: l) :: as, pre.length, 2⟩, ?_, ?_, fun q => absurd q (by simp)⟩
    · unfold Cmd.getNext
      simp only [hp, e2]
      simp
    · intro _
      simp [Cmd.getNextText]

/-- Concrete case: `-vo out --all - x`. -/
example : Cmd.all 9 ⟨[[45, 118, 111], [111], [45, 45, 97], [45], [120]], 0, 0⟩ =
    .ok [.short [118], .short [111], .text [111], .long [97], .text [45], .text [120]] := by rfl

/-- C105 — violated: for an empty argument `peek` reads behind its end (cmdLineIterator.cpp:37). -/
theorem C105_violated : Cmd.all 9 ⟨[[45, 118], [], [120]], 0, 0⟩ = .ub := by rfl

end LS.Query

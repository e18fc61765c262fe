/-
Results about `FilePathT` (model in `FilePath.lean`), property C141.

The specification below knows only parts of a path between separators and what
it means to walk along them; it does not use the model.
-/
import Verif.FilePath

namespace LS.FilePath

/-- The parts of a text between separators. -/
def split (c : Char) : Text → List Text
  | [] => [[]]
  | x :: r =>
    if x = c then [] :: split c r else
      match split c r with
      | [] => [[x]]
      | a :: b => (x :: a) :: b

/-- A place in the tree of directories: the names from the root. -/
abbrev Loc := List Text

/-- One step: an empty part and `.` stay, `..` goes up, a name goes down. -/
def cd (l : Loc) (n : Text) : Loc :=
  if n = [] ∨ n = ['.'] then l else if n = ['.', '.'] then l.dropLast else l ++ [n]

/-- The place reached along a relative text. -/
def walk (l : Loc) (s : Text) : Loc := (split '/' s).foldl cd l

/-- The place a text names: from the root if it begins with the separator. -/
def goto (l : Loc) (s : Text) : Loc := if s.head? = some '/' then walk [] s else walk l s

/-- The directory of the file a text names; a text with the last part `..` names
a directory itself. -/
def dirOf (s : Text) : Loc :=
  if (split '/' s).getLast? = some ['.', '.'] then (split '/' s).foldl cd []
  else (split '/' s).dropLast.foldl cd []

/-- The place a chain should name. -/
def dest : Chain → Loc
  | .base f => dirOf f.s
  | .str h t => goto (dest t) h
  | .par t => cd (dest t) ['.', '.']
  | .nl t => dest t

/-- A proper name of a directory or file. -/
def IsName (n : Text) : Prop := n ≠ [] ∧ n ≠ ['.'] ∧ n ≠ ['.', '.'] ∧ '/' ∉ n

/-- The names, each behind a separator. -/
def absT (ns : List Text) : Text := ns.flatMap fun n => '/' :: n

/-- The names with separators between them. -/
def relT : List Text → Text
  | [] => []
  | n :: ns => n ++ absT ns

/-- The remembered position is nothing or right. -/
def Reads (g : Cfg) (f : FP) : Prop := f.sep = some none ∨ f.sep = some (findLast g.dirSep f.s)

/-- An absolute path whose last part ends with `..` only if it is `..`. -/
def Sound (f : FP) : Prop :=
  Reads linux f ∧ f.s.head? = some '/' ∧
  ∀ m, (split '/' f.s).getLast? = some (m ++ ['.', '.']) → m = []

/-- A chain without `parent` on a sound path. -/
def NoPar : Chain → Prop
  | .base f => Sound f
  | .str _ t => NoPar t
  | .par _ => False
  | .nl t => NoPar t

/-- A chain of proper names on a path of proper names. -/
def Plain : Chain → Prop
  | .base f => Reads linux f ∧ ∃ ns n, (∀ m ∈ ns, IsName m) ∧ '/' ∉ n ∧
      (∀ m, n ≠ m ++ ['.', '.']) ∧ f.s = absT ns ++ '/' :: n
  | .str h t => Plain t ∧ ∃ ns, (∀ m ∈ ns, IsName m) ∧ (h = relT ns ∨ h = absT ns)
  | .par t => Plain t
  | .nl t => Plain t

/-- A chain with at least one step. -/
def IsStep : Chain → Prop
  | .base _ => False
  | _ => True

/-- Every path in the chain has its position. -/
def AllRead (g : Cfg) : Chain → Prop
  | .base f => Reads g f
  | .str _ t => AllRead g t
  | .par t => AllRead g t
  | .nl t => AllRead g t

/-! ### Searching -/

theorem find_none {c : Char} : ∀ {l : Text}, c ∉ l → find c l = none
  | [], _ => rfl
  | x :: r, h => by
    have hx : x ≠ c := fun e => h (by simp [e])
    have hr : c ∉ r := fun e => h (by simp [e])
    simp [find, hx, find_none hr]

theorem find_mid {c : Char} : ∀ {a b : Text}, c ∉ a → find c (a ++ c :: b) = some a.length
  | [], b, _ => by simp [find]
  | x :: r, b, h => by
    have hx : x ≠ c := fun e => h (by simp [e])
    have hr : c ∉ r := fun e => h (by simp [e])
    simp [find, hx, find_mid (b := b) hr]

theorem findLast_none {c : Char} {l : Text} (h : c ∉ l) : findLast c l = none := by
  have : c ∉ l.reverse := by simpa using h
  simp [findLast, find_none this]

theorem findLast_mid {c : Char} {a b : Text} (h : c ∉ b) : findLast c (a ++ c :: b) = some a.length := by
  have hb : c ∉ b.reverse := by simpa using h
  have : (a ++ c :: b).reverse = b.reverse ++ c :: a.reverse := by simp
  rw [findLast, this, find_mid hb]
  simp; omega

/-- A text with a separator has a last one. -/
theorem last_part {c : Char} : ∀ {s : Text}, c ∈ s → ∃ d n, s = d ++ c :: n ∧ c ∉ n
  | [], h => by simp at h
  | x :: r, h => by
    by_cases hr : c ∈ r
    · obtain ⟨d, n, e, hn⟩ := last_part hr
      exact ⟨x :: d, n, by simp [e], hn⟩
    · have : c = x := by simpa [hr] using h
      exact ⟨[], r, by simp [this], hr⟩

theorem split_ne (c : Char) : ∀ s : Text, split c s ≠ []
  | [] => by simp [split]
  | x :: r => by
    unfold split
    split
    · simp
    · split <;> simp

theorem split_none {c : Char} : ∀ {n : Text}, c ∉ n → split c n = [n]
  | [], _ => rfl
  | x :: r, h => by
    have hx : x ≠ c := fun e => h (by simp [e])
    have hr : c ∉ r := fun e => h (by simp [e])
    simp [split, hx, split_none hr]

theorem split_append (c : Char) (b : Text) : ∀ a : Text, split c (a ++ c :: b) = split c a ++ split c b
  | [] => by simp [split]
  | x :: r => by
    have ih := split_append c b r
    by_cases hx : x = c
    · simp [split, hx, ih]
    · simp only [List.cons_append, split, hx, if_false, ih]
      cases h : split c r with
      | nil => exact absurd h (split_ne c r)
      | cons u v => simp

theorem walk_append (l : Loc) (a b : Text) : walk l (a ++ '/' :: b) = walk (walk l a) b := by
  simp [walk, split_append, List.foldl_append]

theorem walk_nil (l : Loc) : walk l [] = l := by simp [walk, split, cd]

theorem cd_name {l : Loc} {n : Text} (h : IsName n) : cd l n = l ++ [n] := by
  obtain ⟨h1, h2, h3, _⟩ := h
  simp [cd, h1, h2, h3]

theorem foldl_names : ∀ (ns : List Text) (l : Loc), (∀ m ∈ ns, IsName m) → ns.foldl cd l = l ++ ns
  | [], l, _ => by simp
  | n :: ns, l, h => by
    have h1 := h n (by simp)
    have h2 : ∀ m ∈ ns, IsName m := fun m hm => h m (by simp [hm])
    simp [cd_name h1, foldl_names ns _ h2]

theorem absT_cons (n : Text) (ns : List Text) : absT (n :: ns) = '/' :: (n ++ absT ns) := by
  simp [absT]

theorem absT_concat (ns : List Text) (n : Text) : absT (ns ++ [n]) = absT ns ++ '/' :: n := by
  simp [absT]

theorem relT_concat (ns : List Text) (n : Text) (h : ns ≠ []) : relT (ns ++ [n]) = relT ns ++ '/' :: n := by
  cases ns with
  | nil => exact absurd rfl h
  | cons m ms => simp [relT, absT_concat]

theorem split_absT : ∀ (ns : List Text) (x : Text), (∀ m ∈ ns, IsName m) →
    split '/' (x ++ absT ns) = split '/' x ++ ns
  | [], x, _ => by simp [absT]
  | n :: ns, x, h => by
    have h1 : IsName n := h n (by simp)
    have h2 : ∀ m ∈ ns, IsName m := fun m hm => h m (by simp [hm])
    have e : x ++ absT (n :: ns) = (x ++ '/' :: n) ++ absT ns := by simp [absT_cons]
    rw [e, split_absT ns _ h2, split_append, split_none h1.2.2.2]
    simp

theorem walk_absT {ns : List Text} (h : ∀ m ∈ ns, IsName m) (l : Loc) : walk l (absT ns) = l ++ ns := by
  have := split_absT ns [] h
  simp only [List.nil_append] at this
  rw [walk, this]
  simp [split, cd, foldl_names ns l h]

theorem walk_relT {ns : List Text} (h : ∀ m ∈ ns, IsName m) (l : Loc) : walk l (relT ns) = l ++ ns := by
  cases ns with
  | nil => simp [relT, walk_nil]
  | cons n ns =>
    have h1 : IsName n := h n (by simp)
    have h2 : ∀ m ∈ ns, IsName m := fun m hm => h m (by simp [hm])
    rw [walk, relT, split_absT ns n h2, split_none h1.2.2.2]
    simp [cd_name h1, foldl_names ns _ h2]

theorem absT_head {ns : List Text} : absT ns = [] ∨ (absT ns).head? = some '/' := by
  cases ns with
  | nil => exact Or.inl rfl
  | cons n ns => exact Or.inr (by simp [absT_cons])

/-! ### `getPath` -/

theorem tail_two {s : Text} (h : tail s 2 = parentDir) : ∃ m, s = m ++ ['.', '.'] :=
  ⟨s.take (s.length - 2), by
    have := List.take_append_drop (s.length - 2) s
    rw [show s.drop (s.length - 2) = ['.', '.'] from h] at this
    exact this.symm⟩

theorem tail_two' (m : Text) : tail (m ++ ['.', '.']) 2 = parentDir := by
  simp [tail, parentDir]

/-- A text that ends with `..` has a last part that does. -/
theorem ends_part {c : Char} (hc : c ≠ '.') {d n : Text} (h : tail (d ++ c :: n) 2 = parentDir) :
    ∃ m, n = m ++ ['.', '.'] := by
  obtain ⟨m, hm⟩ := tail_two h
  have hr : (d ++ c :: n).reverse = '.' :: '.' :: m.reverse := by rw [hm]; simp
  have hr2 : n.reverse ++ c :: d.reverse = '.' :: '.' :: m.reverse := by rw [← hr]; simp
  cases hn : n.reverse with
  | nil => rw [hn] at hr2; simp at hr2; exact absurd hr2.1 hc
  | cons a r =>
    cases r with
    | nil => rw [hn] at hr2; simp at hr2; exact absurd hr2.2.1 hc
    | cons b r =>
      rw [hn] at hr2
      simp at hr2
      refine ⟨r.reverse, ?_⟩
      have : n = n.reverse.reverse := by simp
      rw [this, hn, hr2.1, hr2.2.1]
      simp

theorem getPath_reads {g : Cfg} {f : FP} (h : Reads g f) :
    f.getPath g = if tail f.s 2 = parentDir then some f.s else
      match findLast g.dirSep f.s with
      | none => some []
      | some k => some (head f.s k) := by
  unfold FP.getPath
  split
  · rfl
  · rcases h with h | h
    · rw [h]
      cases findLast g.dirSep f.s <;> rfl
    · rw [h]
      cases findLast g.dirSep f.s <;> rfl

theorem getPath_mid {g : Cfg} {f : FP} (h : Reads g f) {d n : Text} (e : f.s = d ++ g.dirSep :: n)
    (hn : g.dirSep ∉ n) (ht : tail f.s 2 ≠ parentDir) : f.getPath g = some d := by
  rw [getPath_reads h, if_neg ht, e, findLast_mid hn]
  simp [head]

theorem getPath_some {g : Cfg} {f : FP} (h : Reads g f) : ∃ d, f.getPath g = some d := by
  rw [getPath_reads h]
  split
  · exact ⟨_, rfl⟩
  · split
    · exact ⟨_, rfl⟩
    · exact ⟨_, rfl⟩

/-! ### `calcParents` -/

theorem calc_zero (g : Cfg) : ∀ (p : Nat) (z : Text), (calcParents g true p z).2 = 0
  | 0, z => rfl
  | p + 1, z => by
    unfold calcParents
    split
    · simp
    · exact calc_zero g p _

theorem cut_absT {ns : List Text} {n : Text} (h : IsName n) : cut1 linux (absT (ns ++ [n])) = absT ns := by
  have hn : linux.dirSep ∉ n := h.2.2.2
  have e : absT (ns ++ [n]) = absT ns ++ linux.dirSep :: n := absT_concat ns n
  rw [cut1, e, findLast_mid hn]
  simp [head]

theorem cut_relT {ns : List Text} {n : Text} (h : IsName n) : cut1 linux (relT (ns ++ [n])) = relT ns := by
  have hn : linux.dirSep ∉ n := h.2.2.2
  by_cases h0 : ns = []
  · subst h0
    have e : relT ([] ++ [n]) = n := by simp [relT, absT]
    rw [cut1, e, findLast_none hn]
    rfl
  · have e : relT (ns ++ [n]) = relT ns ++ linux.dirSep :: n := relT_concat ns n h0
    rw [cut1, e, findLast_mid hn]
    simp [head]

theorem concat_of {ns : List Text} (h : ns ≠ []) : ∃ ms n, ns = ms ++ [n] :=
  ⟨ns.dropLast, ns.getLast h, (List.dropLast_concat_getLast h).symm⟩

theorem take_less {ms : List Text} {n : Text} (p : Nat) :
    ms.take (ms.length - p) = (ms ++ [n]).take ((ms ++ [n]).length - (p + 1)) := by
  have e : (ms ++ [n]).length - (p + 1) = ms.length - p := by simp
  rw [e, List.take_append_of_le_length (by omega)]

theorem calc_absT : ∀ (p : Nat) (ns : List Text), (∀ m ∈ ns, IsName m) →
    calcParents linux true p (absT ns) = (absT (ns.take (ns.length - p)), 0)
  | 0, ns, _ => by simp [calcParents]
  | p + 1, ns, h => by
    by_cases h0 : ns = []
    · subst h0; simp [calcParents, absT]
    · obtain ⟨ms, n, e⟩ := concat_of h0
      subst e
      have hn : IsName n := h n (by simp)
      have hm : ∀ m ∈ ms, IsName m := fun m hm => h m (by simp [hm])
      have hne : (absT (ms ++ [n])).isEmpty = false := by rw [absT_concat]; simp
      rw [calcParents, hne, cut_absT hn, if_neg (by simp), calc_absT p ms hm, take_less (n := n)]

theorem relT_ne {ms : List Text} {n : Text} (h : IsName n) (hm : ∀ m ∈ ms, IsName m) :
    (relT (ms ++ [n])).isEmpty = false := by
  cases ms with
  | nil => simpa [relT, absT] using h.1
  | cons a b => simp [relT, (hm a (by simp)).1]

theorem calc_relT : ∀ (p : Nat) (ns : List Text), (∀ m ∈ ns, IsName m) →
    calcParents linux false p (relT ns) = (relT (ns.take (ns.length - p)), p - ns.length)
  | 0, ns, _ => by simp [calcParents]
  | p + 1, ns, h => by
    by_cases h0 : ns = []
    · subst h0; simp [calcParents, relT]
    · obtain ⟨ms, n, e⟩ := concat_of h0
      subst e
      have hn : IsName n := h n (by simp)
      have hm : ∀ m ∈ ms, IsName m := fun m hm => h m (by simp [hm])
      rw [calcParents, relT_ne hn hm, cut_relT hn, if_neg (by simp), calc_relT p ms hm, take_less (n := n)]
      congr 1
      simp

/-! ### Chains -/

theorem writePath_zero (g : Cfg) : ∀ (c : Chain) (p : Nat) (w : Text × Nat), c.writePath g p = some w → w.2 = 0
  | .base f, p, w, h => by
    simp only [Chain.writePath, Option.map_eq_some_iff] at h
    obtain ⟨d, _, rfl⟩ := h
    exact calc_zero g p d
  | .str s t, p, w, h => by
    simp only [Chain.writePath] at h
    split at h
    · rename_i ha
      rw [ha] at h
      simp only [Bool.true_or, Option.some.injEq] at h
      rw [← h]
      exact calc_zero g p s
    · split at h
      · rename_i hd
        rw [hd] at h
        simp only [Bool.or_true, Option.some.injEq] at h
        rw [← h]
        exact calc_zero g p s
      · simp only [Option.map_eq_some_iff] at h
        obtain ⟨v, hv, rfl⟩ := h
        exact writePath_zero g t _ v hv
  | .par t, p, w, h => by
    simp only [Chain.writePath, Option.map_eq_some_iff] at h
    obtain ⟨v, hv, rfl⟩ := h
    have := writePath_zero g t _ v hv
    simp [this]
  | .nl t, p, w, h => writePath_zero g t p w h

theorem length_eq (g : Cfg) : ∀ (c : Chain) (p : Nat),
    c.getPathLength g p = (c.writePath g p).map fun w => (w.1.length, w.2)
  | .base f, p => by
    simp only [Chain.getPathLength, Chain.writePath, Option.map_map]
    rfl
  | .str s t, p => by
    simp only [Chain.getPathLength, Chain.writePath]
    split
    · rfl
    · split
      · simp; omega
      · rw [length_eq g t, Option.map_map, Option.map_map]
        congr 1
        funext w
        simp; omega
  | .par t, p => by
    simp only [Chain.getPathLength, Chain.writePath]
    rw [length_eq g t, Option.map_map, Option.map_map]
    congr 1
    funext w
    simp only [Function.comp_apply]
    by_cases h : w.2 = 0
    · simp [h]
    · simp only [h, ne_eq, not_false_eq_true, if_true]
      simp; omega
  | .nl t, p => length_eq g t p

theorem build_eq {g : Cfg} {c : Chain} {w : Text} (h : c.writePath g 0 = some (w, 0)) :
    c.build g = .ok ⟨if c.isFolder then w ++ [g.dirSep] else w, some none⟩ := by
  unfold Chain.build
  rw [length_eq, h]
  simp only [Option.map_some, Chain.text, h]
  split <;> simp

theorem all_write {g : Cfg} : ∀ {c : Chain} (p : Nat), AllRead g c → ∃ w, c.writePath g p = some (w, 0)
  | .base f, p, h => by
    obtain ⟨d, hd⟩ := getPath_some (f := f) h
    exact ⟨(calcParents g true p d).1, by
      rw [Chain.writePath, hd, Option.map_some, ← calc_zero g p d]⟩
  | .str s t, p, h => by
    have key : ∃ w, (Chain.str s t).writePath g p = some w := by
      simp only [Chain.writePath]
      split
      · exact ⟨_, rfl⟩
      · split
        · exact ⟨_, rfl⟩
        · obtain ⟨w, hw⟩ := all_write (c := t) _ h
          exact ⟨_, by rw [hw]; rfl⟩
    obtain ⟨w, hw⟩ := key
    exact ⟨w.1, by rw [hw, ← writePath_zero g _ _ _ hw]⟩
  | .par t, p, h => by
    obtain ⟨w, hw⟩ := all_write (c := t) (p + 1) h
    exact ⟨w, by simp [Chain.writePath, hw]⟩
  | .nl t, p, h => all_write (c := t) p h

theorem isAbs_linux (h : Text) : isAbs linux h = (h.head? == some '/') := by
  cases h with
  | nil => rfl
  | cons x r =>
    by_cases hx : x = '/'
    · subst hx
      simp [isAbs, driveabs, linux, find]
    · have : find '/' (x :: r) ≠ some 0 := by
        simp only [find, hx, if_false]
        cases find '/' r <;> simp
      have e1 : (find '/' (x :: r) == some 0) = false := by simpa using this
      have e2 : isAbs linux (x :: r) = (find '/' (x :: r) == some 0) := by simp [isAbs, driveabs, linux]
      rw [e2, e1]
      simp [hx]

theorem driveabs_linux (h : Text) : driveabs linux h = isAbs linux h := by simp [isAbs, linux, driveabs]

/-! ### C141 -/

/-- C141: the length computed first is right, a chain never runs out of the
buffer, and a text is written whatever the steps are; for every configuration. -/
theorem C141_fits (g : Cfg) (c : Chain) (h : AllRead g c) :
    ∃ t, c.build g = .ok ⟨t, some none⟩ ∧
      c.getPathLength g 0 = some (t.length - (if c.isFolder then 1 else 0), 0) := by
  obtain ⟨w, hw⟩ := all_write 0 h
  refine ⟨_, build_eq hw, ?_⟩
  rw [length_eq, hw]
  cases c.isFolder <;> simp

example : (Chain.str ['a', '/', 'b'] (.par (.base (.mk1 ['/', 'x', '/', 'y', '/', 'f'])))).build linux =
    .ok ⟨['/', 'x', '/', 'a', '/', 'b'], some none⟩ := by decide

/-- C141: all parents are used up, so the branch that writes `..`
(FilePath.h:168-172, 177-180) is never reached; and a step that is not absolute
is never relative to the drive (FilePath.h:69-74). -/
theorem C141_no_dots (g : Cfg) :
    (∀ c p w, Chain.writePath g c p = some w → w.2 = 0) ∧
    (∀ h, isAbs g h = false → driveabs g h = false) := by
  refine ⟨writePath_zero g, fun h ha => ?_⟩
  cases hd : driveabs g h with
  | false => rfl
  | true =>
    have : find g.rootSep h = some 0 := by simpa [driveabs] using hd
    cases hn : g.nodrive <;> simp [isAbs, hn, hd, this] at ha

/-- C141: the remembered position does not change what is read: every
constructor but the default one, the assignment and `getPath` itself keep it
right, and with it `getPath` gives what it gives without it. -/
theorem C141_cache (g : Cfg) (f : FP) :
    (∀ t, Reads g (.mk1 t)) ∧ (∀ t d, Reads g (.mk2 g t d)) ∧ (∀ o, Reads g (f.assign o) ∧ (f.assign o).s = o.s) ∧
    (∀ c q, Chain.build g c = .ok q → Reads g q) ∧
    (Reads g f → Reads g (f.touch g) ∧ (f.touch g).s = f.s ∧ f.getPath g = (FP.mk1 f.s).getPath g) := by
  refine ⟨fun t => Or.inl rfl, fun t d => ?_, fun o => ⟨Or.inl rfl, rfl⟩, fun c q h => ?_, fun h => ⟨?_, ?_, ?_⟩⟩
  · unfold FP.mk2
    split <;> exact Or.inl rfl
  · unfold Chain.build at h
    split at h
    · cases h
    · split at h
      · cases h
      · rename_i n p _ _ t _
        by_cases hk : t.length > n + (if c.isFolder then 1 else 0)
        · rw [if_pos hk] at h; cases h
        · rw [if_neg hk] at h; cases h
          exact Or.inl rfl
  · unfold FP.touch
    split
    · exact h
    · split
      · exact h
      · exact h
      · exact Or.inr rfl
  · unfold FP.touch
    split
    · rfl
    · split <;> rfl
  · rw [getPath_reads h, getPath_reads (f := .mk1 f.s) (Or.inl rfl)]
    rfl

/-- C141: the parts of a path: what is before and behind the last separator, and
the name before and behind its last dot. -/
theorem C141_parts (g : Cfg) (f : FP) (d n : Text) (hr : Reads g f) (hg : g.dirSep ≠ '.')
    (e : f.s = d ++ g.dirSep :: n) (hn : g.dirSep ∉ n) (hd : ∀ m, n ≠ m ++ ['.', '.']) :
    f.getPath g = some d ∧ f.getFilename g = some n ∧
    (∀ t x, n = t ++ g.extSep :: x → g.extSep ∉ x →
      f.getTitle g = some t ∧ f.getExtension g = some x) ∧
    (g.extSep ∉ n → f.getTitle g = some n ∧ f.getExtension g = some []) ∧
    (∀ u v, d = u ++ g.dirSep :: v → g.dirSep ∉ v → f.getParentPath g = some u) := by
  have ht : tail f.s 2 ≠ parentDir := by
    intro h
    rw [e] at h
    obtain ⟨m, hm⟩ := ends_part hg h
    exact hd m hm
  have h1 := getPath_mid hr e hn ht
  have h2 : f.getFilename g = some n := by
    rw [FP.getFilename, h1, e]
    simp [offset]
  refine ⟨h1, h2, fun t x et hx => ?_, fun hx => ?_, fun u v eu hv => ?_⟩
  · rw [FP.getTitle, FP.getExtension, h2, et]
    simp [titleOf, extOf, findLast_mid hx, head, offset]
  · rw [FP.getTitle, FP.getExtension, h2]
    simp [titleOf, extOf, findLast_none hx]
  · rw [FP.getParentPath, h1, eu]
    simp [findLast_mid hv, head]

example : (FP.mk1 ['/', 'a', '/', 'b', '.', 'c']).getFilename linux = some ['b', '.', 'c'] ∧
    (FP.mk1 ['/', 'a', '/', 'b', '.', 'c']).getTitle linux = some ['b'] ∧
    (FP.mk1 ['/', 'a', '/', 'b', '.', 'c']).getExtension linux = some ['c'] := by decide

/-- C141: the drive is what is before the first separator of the path or, in a
chain, of the last absolute step. -/
theorem C141_drive (g : Cfg) (h d r : Text) (t : Chain) (k : Option (Option Nat)) :
    (h = d ++ g.rootSep :: r → g.rootSep ∉ d →
      (⟨h, k⟩ : FP).getDrive g = d ∧ (isAbs g h = true → (Chain.str h t).getDrive g = d)) ∧
    (g.rootSep ∉ h → (⟨h, k⟩ : FP).getDrive g = []) ∧
    (isAbs g h = false → (Chain.str h t).getDrive g = t.getDrive g) ∧
    (Chain.par t).getDrive g = t.getDrive g ∧ (Chain.nl t).getDrive g = t.getDrive g := by
  refine ⟨fun e hd => ⟨?_, fun ha => ?_⟩, fun hn => ?_, fun ha => ?_, rfl, rfl⟩
  · subst e
    simp [FP.getDrive, find_mid hd, head]
  · subst e
    simp [Chain.getDrive, ha, find_mid hd, head]
  · simp [FP.getDrive, find_none hn]
  · simp [Chain.getDrive, ha]

example : (FP.mk1 ['c', ':', '\\', 'x']).getDrive windows = ['c', ':'] := by decide

/-- C141: a path made as a directory keeps all its parts. -/
theorem C141_directory (g : Cfg) (t : Text) (hg : g.dirSep ≠ '.') :
    (∀ u, t = u ++ [g.dirSep] → (FP.mk2 g t true).getPath g = some u) ∧
    ((∀ u, t ≠ u ++ [g.dirSep]) → (FP.mk2 g t true).getPath g = some t) ∧
    (FP.mk2 g t true).getFilename g = some [] ∧ FP.mk2 g t false = .mk1 t := by
  have key : ∀ u : Text, (⟨u ++ [g.dirSep], some none⟩ : FP).getPath g = some u := by
    intro u
    refine getPath_mid (d := u) (n := []) (Or.inl rfl) rfl (by simp) (fun h => ?_)
    obtain ⟨m, hm⟩ := ends_part (n := []) hg h
    simp at hm
  have keyn : ∀ u : Text, (⟨u ++ [g.dirSep], some none⟩ : FP).getFilename g = some [] := by
    intro u
    rw [FP.getFilename, key u]
    simp [offset]
  have tl : tail t 1 = [g.dirSep] → ∃ u, t = u ++ [g.dirSep] := fun h =>
    ⟨t.take (t.length - 1), by
      have := List.take_append_drop (t.length - 1) t
      rw [show t.drop (t.length - 1) = [g.dirSep] from h] at this
      exact this.symm⟩
  have tl2 : ∀ u : Text, tail (u ++ [g.dirSep]) 1 = [g.dirSep] := fun u => by simp [tail]
  have c1 : ∀ u, t = u ++ [g.dirSep] → FP.mk2 g t true = ⟨u ++ [g.dirSep], some none⟩ := by
    intro u e
    subst e
    simp [FP.mk2, tl2]
  have c2 : (∀ u, t ≠ u ++ [g.dirSep]) → FP.mk2 g t true = ⟨t ++ [g.dirSep], some none⟩ := by
    intro h
    have : tail t 1 ≠ [g.dirSep] := fun e => by
      obtain ⟨u, hu⟩ := tl e
      exact h u hu
    simp [FP.mk2, this]
  refine ⟨fun u e => by rw [c1 u e]; exact key u, fun h => by rw [c2 h]; exact key t, ?_, ?_⟩
  · by_cases h : ∃ u, t = u ++ [g.dirSep]
    · obtain ⟨u, hu⟩ := h
      rw [c1 u hu]
      exact keyn u
    · rw [c2 (fun u e => h ⟨u, e⟩)]
      exact keyn t
  · simp [FP.mk2, FP.mk1]

theorem sound_path {f : FP} (h : Sound f) :
    ∃ d, f.getPath linux = some d ∧ walk [] d = dirOf f.s ∧ (d = [] ∨ d.head? = some '/') := by
  obtain ⟨hr, hh, hd⟩ := h
  have hm : '/' ∈ f.s := List.mem_of_mem_head? hh
  obtain ⟨d, n, e, hn⟩ := last_part hm
  have hs : split '/' f.s = split '/' d ++ [n] := by rw [e, split_append, split_none hn]
  have hl : (split '/' f.s).getLast? = some n := by rw [hs]; simp
  by_cases ht : tail f.s 2 = parentDir
  · have ht2 := ht
    rw [e] at ht2
    obtain ⟨m, hm⟩ := ends_part (by decide) ht2
    have : m = [] := hd m (by rw [hl, hm])
    subst this
    simp only [List.nil_append] at hm
    refine ⟨f.s, by rw [getPath_reads hr, if_pos ht], ?_, Or.inr hh⟩
    rw [walk, dirOf, if_pos (by rw [hl, hm])]
  · have hnn : n ≠ ['.', '.'] := by
      intro h
      apply ht
      rw [e, h]
      have := tail_two' (d ++ ['/'])
      simpa using this
    refine ⟨d, getPath_mid hr e hn ht, ?_, ?_⟩
    · rw [walk, dirOf, if_neg (by rw [hl]; simpa using hnn), hs]
      simp
    · cases d with
      | nil => exact Or.inl rfl
      | cons x y => rw [e] at hh; exact Or.inr (by simpa using hh)

theorem noPar_write : ∀ {c : Chain}, NoPar c →
    ∃ w, c.writePath linux 0 = some (w, 0) ∧ walk [] w = dest c ∧
      (w = [] ∨ w.head? = some '/') ∧ (IsStep c → c.isFolder = false → w.head? = some '/')
  | .base f, h => by
    obtain ⟨d, h1, h2, h3⟩ := sound_path h
    refine ⟨d, ?_, h2, h3, fun h => absurd h (by simp [IsStep])⟩
    simp [Chain.writePath, h1, calcParents]
  | .str s t, h => by
    obtain ⟨w, h1, h2, h3, _⟩ := noPar_write (c := t) h
    by_cases ha : s.head? = some '/'
    · refine ⟨s, ?_, ?_, Or.inr ha, fun _ _ => ha⟩
      · have : isAbs linux s = true := by rw [isAbs_linux]; simpa using ha
        simp [Chain.writePath, this, calcParents]
      · rw [dest, goto, if_pos ha]
    · have hb : isAbs linux s = false := by rw [isAbs_linux]; simpa using ha
      have hh : (w ++ '/' :: s).head? = some '/' := by
        rcases h3 with h3 | h3
        · simp [h3]
        · cases w with
          | nil => simp
          | cons x y => simpa using h3
      refine ⟨w ++ '/' :: s, ?_, ?_, Or.inr hh, fun _ _ => hh⟩
      · simp [Chain.writePath, driveabs_linux, hb, calcParents, h1]
        rfl
      · rw [dest, goto, if_neg ha, walk_append, h2]
  | .par t, h => by cases h
  | .nl t, h => by
    obtain ⟨w, h1, h2, h3, _⟩ := noPar_write (c := t) h
    exact ⟨w, h1, h2, h3, fun _ h => by simp [Chain.isFolder] at h⟩

theorem walk_folder (w : Text) : walk [] (w ++ ['/']) = walk [] w := by
  rw [walk_append, walk_nil]

/-- From what is written to the whole path. -/
theorem build_dest {c : Chain} {w : Text} (hs : IsStep c) (h1 : c.writePath linux 0 = some (w, 0))
    (h2 : walk [] w = dest c) (h3 : w = [] ∨ w.head? = some '/')
    (h4 : IsStep c → c.isFolder = false → w.head? = some '/') :
    ∃ f, c.build linux = .ok f ∧ f.s.head? = some '/' ∧ walk [] f.s = dest c := by
  refine ⟨_, build_eq h1, ?_, ?_⟩
  · cases hf : c.isFolder with
    | false => simpa using h4 hs hf
    | true =>
      rcases h3 with h3 | h3
      · simp [h3, linux]
      · cases w with
        | nil => simp [linux]
        | cons x y => simpa using h3
  · cases hf : c.isFolder with
    | false => simpa using h2
    | true => simpa [linux, walk_folder] using h2

/-- C141: a chain of texts, without `parent`, on an absolute path gives an
absolute path to the place the texts lead to; the texts may be anything, with
`.`, `..`, empty parts and absolute ones. -/
theorem C141_texts (c : Chain) (hs : IsStep c) (h : NoPar c) :
    ∃ f, c.build linux = .ok f ∧ f.s.head? = some '/' ∧ walk [] f.s = dest c := by
  obtain ⟨w, h1, h2, h3, h4⟩ := noPar_write h
  exact build_dest hs h1 h2 h3 h4

example : ∃ f, (Chain.str ['.', '.', '/', 'b'] (.base (.mk1 ['/', 'x', '/', 'y', '/', 'f']))).build linux = .ok f ∧
    f.s = ['/', 'x', '/', 'y', '/', '.', '.', '/', 'b'] ∧ walk [] f.s = [['x'], ['b']] :=
  ⟨⟨['/', 'x', '/', 'y', '/', '.', '.', '/', 'b'], some none⟩, by decide, rfl, by decide⟩

theorem relT_head {ns : List Text} (h : ∀ m ∈ ns, IsName m) : (relT ns).head? ≠ some '/' := by
  cases ns with
  | nil => simp [relT]
  | cons n ns =>
    obtain ⟨h1, _, _, h4⟩ := h n (by simp)
    cases n with
    | nil => exact absurd rfl h1
    | cons x y =>
      intro e
      simp [relT] at e
      exact h4 (by simp [e])

theorem take_names {ns : List Text} (h : ∀ m ∈ ns, IsName m) (k : Nat) : ∀ m ∈ ns.take k, IsName m :=
  fun m hm => h m (List.mem_of_mem_take hm)

theorem plain_dest : ∀ {c : Chain}, Plain c → ∀ p : Nat,
    ∃ w, c.writePath linux p = some (w, 0) ∧ walk [] w = (dest c).take ((dest c).length - p) ∧
      (w = [] ∨ w.head? = some '/') ∧ (p = 0 → IsStep c → c.isFolder = false → w.head? = some '/')
  | .base f, h, p => by
    obtain ⟨hr, ns, n, h1, h2, h3, e⟩ := h
    have ht : tail f.s 2 ≠ parentDir := by
      intro h
      rw [e] at h
      obtain ⟨m, hm⟩ := ends_part (by decide) h
      exact h3 m hm
    have hg : f.getPath linux = some (absT ns) := getPath_mid hr e h2 ht
    have hs : split '/' f.s = split '/' (absT ns) ++ [n] := by rw [e, split_append, split_none h2]
    have hd : dest (.base f) = ns := by
      rw [dest, dirOf, if_neg, hs]
      · simp only [List.dropLast_concat]
        have := walk_absT h1 []
        simpa [walk] using this
      · rw [hs]
        have := h3 []
        simpa using this
    rw [hd]
    refine ⟨absT (ns.take (ns.length - p)), ?_, ?_, absT_head, fun _ h => absurd h (by simp [IsStep])⟩
    · rw [Chain.writePath, hg, Option.map_some, calc_absT p ns h1]
    · rw [walk_absT (take_names h1 _)]; simp
  | .str s t, h, p => by
    obtain ⟨hp, ns, h1, h2⟩ := h
    have rel : s = relT ns → ∃ w, (Chain.str s t).writePath linux p = some (w, 0) ∧
        walk [] w = (dest (.str s t)).take ((dest (.str s t)).length - p) ∧
        (w = [] ∨ w.head? = some '/') ∧
        (p = 0 → IsStep (.str s t) → (Chain.str s t).isFolder = false → w.head? = some '/') := by
      intro e
      have hb : isAbs linux s = false := by
        rw [isAbs_linux, e]
        have := relT_head h1
        simpa using this
      obtain ⟨w, g1, g2, g3, _⟩ := plain_dest hp (p - ns.length)
      have hd : dest (.str s t) = dest t ++ ns := by
        rw [dest, goto, if_neg (by rw [e]; exact relT_head h1), e, walk_relT h1]
      have hh : (w ++ '/' :: relT (ns.take (ns.length - p))).head? = some '/' := by
        rcases g3 with g3 | g3
        · simp [g3]
        · cases w with
          | nil => simp
          | cons x y => simpa using g3
      refine ⟨w ++ '/' :: relT (ns.take (ns.length - p)), ?_, ?_, Or.inr hh, fun _ _ _ => hh⟩
      · simp only [Chain.writePath, driveabs_linux, hb, Bool.or_self]
        rw [e, calc_relT p ns h1]
        simp only [g1]
        simp [linux]
      · rw [walk_append, g2, walk_relT (take_names h1 _), hd, List.take_append]
        congr 1
        · by_cases hk : p ≤ ns.length
          · rw [List.take_of_length_le (by omega), List.take_of_length_le (by simp; omega)]
          · congr 1; simp; omega
        · congr 1; simp; omega
    rcases h2 with h2 | h2
    · exact rel h2
    · by_cases h0 : ns = []
      · exact rel (by rw [h2, h0]; rfl)
      · have ha : s.head? = some '/' := by
          rcases absT_head (ns := ns) with h | h
          · cases ns with
            | nil => exact absurd rfl h0
            | cons a b => simp [absT_cons] at h
          · rw [h2]; exact h
        have hb : isAbs linux s = true := by rw [isAbs_linux]; simpa using ha
        have hd : dest (.str s t) = ns := by
          rw [dest, goto, if_pos ha, h2, walk_absT h1]; simp
        rw [hd]
        refine ⟨absT (ns.take (ns.length - p)), ?_, ?_, absT_head, fun h _ _ => ?_⟩
        · simp only [Chain.writePath, hb, Bool.true_or, if_true]
          rw [h2, calc_absT p ns h1]
        · rw [walk_absT (take_names h1 _)]; simp
        · subst h
          simp only [Nat.sub_zero, List.take_length]
          rw [← h2]; exact ha
  | .par t, h, p => by
    obtain ⟨w, g1, g2, g3, _⟩ := plain_dest (c := t) h (p + 1)
    refine ⟨w, by simp [Chain.writePath, g1], ?_, g3, fun _ _ h => by simp [Chain.isFolder] at h⟩
    rw [g2, show dest (.par t) = (dest t).dropLast by simp [dest, cd]]
    rw [List.dropLast_eq_take, List.take_take]
    congr 1
    simp; omega
  | .nl t, h, p => by
    obtain ⟨w, g1, g2, g3, _⟩ := plain_dest (c := t) h p
    exact ⟨w, g1, g2, g3, fun _ _ h => by simp [Chain.isFolder] at h⟩

/-- C141, partial: with `parent`, a chain gives the right place when all parts
are proper names.  Missing: `.`, `..` and empty parts before `parent`
(`C141_parent_violated`). -/
theorem C141_parent_partial (c : Chain) (hs : IsStep c) (h : Plain c) :
    ∃ f, c.build linux = .ok f ∧ f.s.head? = some '/' ∧ walk [] f.s = dest c := by
  obtain ⟨w, h1, h2, h3, h4⟩ := plain_dest h 0
  refine build_dest hs h1 ?_ h3 (h4 rfl)
  rw [h2]; simp

example : dest (.par (.par (.str ['a'] (.base (.mk1 ['/', 'x', '/', 'y', '/', 'f']))))) = [['x']] ∧
    (Chain.par (.par (.str ['a'] (.base (.mk1 ['/', 'x', '/', 'y', '/', 'f']))))).build linux =
      .ok ⟨['/', 'x', '/', '/'], some none⟩ := by decide

/-- C141: a chain that ends with a directory may be stored and continued with a
text; for every configuration. -/
theorem C141_stored (g : Cfg) (hg : g.dirSep ≠ '.') (c : Chain) (q : FP) (h : Text)
    (hf : c.isFolder = true) (hq : c.build g = .ok q) :
    (Chain.str h (.base q)).writePath g 0 = (Chain.str h c).writePath g 0 := by
  cases ha : isAbs g h with
  | true => simp [Chain.writePath, ha]
  | false =>
    have hd := (C141_no_dots g).2 h ha
    unfold Chain.build at hq
    rw [length_eq] at hq
    cases hw : c.writePath g 0 with
    | none => rw [hw] at hq; simp at hq
    | some v =>
      obtain ⟨w, k⟩ := v
      have hk : k = 0 := writePath_zero g c 0 _ hw
      subst hk
      rw [hw] at hq
      simp only [Option.map_some, Chain.text, hw, hf, if_true] at hq
      have e : q = ⟨w ++ [g.dirSep], some none⟩ := by
        split at hq
        · cases hq
        · cases hq; rfl
      have hp : q.getPath g = some w := by
        subst e
        refine getPath_mid (d := w) (n := []) (Or.inl rfl) rfl (by simp) (fun h => ?_)
        obtain ⟨m, hm⟩ := ends_part (n := []) hg h
        simp at hm
      simp [Chain.writePath, ha, hd, hp, hw, calcParents]

example : (Chain.str ['b'] (.base ⟨['/', 'x', '/'], some none⟩)).writePath linux 0 =
    (Chain.str ['b'] (.nl (.base (.mk1 ['/', 'x', '/', 'f'])))).writePath linux 0 := by decide

/-- C141 violated: `parent` takes back the text `..` or an empty part instead of
going up, behind a step, in a step and in the stored path; a stored result of
`base / "a" / parent` has such an empty part although all names are proper. -/
theorem C141_parent_violated :
    let base : Chain := .base (.mk1 ['/', 'x', '/', 'y', '/', 'f'])
    ((Chain.par (.str ['.', '.'] base)).build linux = .ok ⟨['/', 'x', '/', 'y', '/', '/'], some none⟩ ∧
      dest (.par (.str ['.', '.'] base)) = []) ∧
    ((Chain.par (.str ['a', '/'] base)).build linux = .ok ⟨['/', 'x', '/', 'y', '/', 'a', '/'], some none⟩ ∧
      dest (.par (.str ['a', '/'] base)) = [['x'], ['y']]) ∧
    ((Chain.par (.base (.mk1 ['/', 'x', '/', '.', '.']))).build linux = .ok ⟨['/', 'x', '/'], some none⟩ ∧
      dest (.par (.base (.mk1 ['/', 'x', '/', '.', '.']))) = []) ∧
    ∃ q, (Chain.par (.str ['a'] base)).build linux = .ok q ∧ walk [] q.s = [['x'], ['y']] ∧
      (Chain.par (.base q)).build linux = .ok ⟨['/', 'x', '/', 'y', '/'], some none⟩ := by
  refine ⟨by decide, by decide, by decide, ?_⟩
  exact ⟨⟨['/', 'x', '/', 'y', '/', '/'], some none⟩, by decide, by decide, by decide⟩

/-- C141 violated: the name of a file without a separator loses its first
character, and a file whose name ends with two dots has no name. -/
theorem C141_filename_violated :
    (FP.mk1 ['f', '.', 't']).getFilename linux = some ['.', 't'] ∧
    (FP.mk1 ['f', '.', 't']).getTitle linux = some [] ∧
    (FP.mk1 ['/', 'a', '/', 'b', '.', '.']).getFilename linux = some [] ∧
    (FP.mk1 ['/', 'a', '/', 'b', '.', '.']).getPath linux = some ['/', 'a', '/', 'b', '.', '.'] := by decide

/-- C141 violated: a relative path becomes an absolute one. -/
theorem C141_relative_violated :
    (Chain.str ['a'] (.base (.mk1 ['f']))).build linux = .ok ⟨['/', 'a'], some none⟩ := by decide

/-- C141 violated: a path made by the default constructor reads a position that
has no value. -/
theorem C141_default_violated :
    FP.empty.getPath linux = none ∧ (Chain.str ['a'] (.base .empty)).build linux = .ub ∧
    ¬ Reads linux .empty := by
  refine ⟨by decide, by decide, ?_⟩
  intro h
  rcases h with h | h <;> exact absurd h (by decide)

/-- C141 violated: with the configuration for windows a relative text with a
separator is taken for an absolute path, and the base is lost. -/
theorem C141_windows_violated :
    (Chain.str ['a', '\\', 'b'] (.base (.mk1 ['c', ':', '\\', 'x', '\\', 'f']))).build windows =
      .ok ⟨['a', '\\', 'b'], some none⟩ ∧
    (Chain.str ['a'] (.base (.mk1 ['c', ':', '\\', 'x', '\\', 'f']))).build windows =
      .ok ⟨['c', ':', '\\', 'x', '\\', 'a'], some none⟩ := by decide

end LS.FilePath

import Verif.HttpProps
/-
C116: bodies of known length and bodies until the end of the input.  C117: heads.
-/
namespace LS.Http

/-! ## C116: until the end -/

/-- What is still to come. -/
def coming (s : Resp) : Str := if s.cloaded then s.c :: s.inp else s.inp

/-- C116: without a length, every sequence of calls gives all that comes until the end of the input, also after the end. -/
theorem C116_direct : ∀ (os : List Op) {s : Resp}, s.mode = .direct → run s os = plain (coming s) os
  | [], _, _ => rfl
  | o :: os, ⟨inp, e, mode, rl, c, cl, code, msg, hd, op, pa⟩, hm => by
    have hm : mode = .direct := hm
    subst hm
    cases cl with
    | true =>
      have ih := C116_direct os (s := ⟨inp, e, .direct, rl, c, true, code, msg, hd, op, pa⟩) rfl
      have ih2 := C116_direct os (s := ⟨inp, e, .direct, rl, c, false, code, msg, hd, op, pa⟩) rfl
      cases o with
      | has => exact congrArg _ ih
      | peek => exact congrArg _ ih
      | next => exact congrArg _ ih2
    | false =>
      cases inp with
      | nil =>
        have ih := C116_direct os (s := ⟨[], true, .direct, rl, c, false, code, msg, hd, op, pa⟩) rfl
        cases o with
        | has => exact congrArg _ ih
        | peek => exact congrArg _ ih
        | next => exact congrArg _ ih
      | cons x r =>
        have ih := C116_direct os (s := ⟨r, e, .direct, rl, x, true, code, msg, hd, op, pa⟩) rfl
        have ih2 := C116_direct os (s := ⟨r, e, .direct, rl, x, false, code, msg, hd, op, pa⟩) rfl
        cases o with
        | has => exact congrArg _ ih
        | peek => exact congrArg _ ih
        | next => exact congrArg _ ih2

/-! ## C116: known length -/

/-- `t` is to come of the body, then follows `rest`. -/
def RelL (s : Resp) (t rest : Str) : Prop :=
  s.mode = .limited ∧ t.length = s.readLen ∧ ((s.cloaded = false ∧ s.inp = t ++ rest) ∨ (s.cloaded = true ∧ ∃ t', t = s.c :: t' ∧ s.inp = t' ++ rest))

/-- No reading at the end. -/
def Fits : Str → List Op → Prop
  | _, [] => True
  | t, .has :: os => Fits t os
  | t, .peek :: os => t ≠ [] ∧ Fits t os
  | t, .next :: os => t ≠ [] ∧ Fits t.tail os

/-- Calls of a response and what is left of the input. -/
def runEnd : Resp → List Op → List Ev
  | s, [] => [.left s.inp]
  | s, .has :: os =>
    match s.hasItems with
    | .ok b s => .has b :: runEnd s os
    | _ => [.bad]
  | s, .peek :: os =>
    match s.peek with
    | .ok x s => .peek (some x) :: runEnd s os
    | .thrown s => .peek none :: runEnd s os
    | _ => [.bad]
  | s, .next :: os =>
    match s.getNext with
    | .ok x s => .next (some x) :: runEnd s os
    | .thrown s => .next none :: runEnd s os
    | _ => [.bad]

theorem limited_has {s : Resp} {t rest : Str} (h : RelL s t rest) : s.hasItems = .ok (!t.isEmpty) s := by
  obtain ⟨hm, hl, h⟩ := h
  unfold Resp.hasItems
  rw [hm]
  simp only
  cases t with
  | nil =>
    rcases h with ⟨h1, _⟩ | ⟨_, t', h2, _⟩
    · have : s.readLen = 0 := by rw [← hl]; rfl
      rw [h1, this]; rfl
    · cases h2
  | cons x t =>
    have : s.readLen > 0 := by rw [← hl]; exact Nat.succ_pos _
    simp [this]

theorem limited_peek {s : Resp} {x : Nat} {t rest : Str} (h : RelL s (x :: t) rest) : ∃ s', s.peek = .ok x s' ∧ RelL s' (x :: t) rest := by
  obtain ⟨inp, e, mode, rl, c, cl, code, msg, hd, op, pa⟩ := s
  obtain ⟨hm, hl, ⟨h1, h2⟩ | ⟨h1, t', h2, h3⟩⟩ := h
  · simp only at hm h1 h2
    subst hm; subst h1; subst h2
    exact ⟨_, rfl, rfl, hl, .inr ⟨rfl, t, rfl, rfl⟩⟩
  · simp only at hm h1 h2 h3
    injection h2 with e1 e2
    subst hm; subst h1; subst e2; subst h3; subst e1
    exact ⟨_, rfl, rfl, hl, .inr ⟨rfl, t, rfl, rfl⟩⟩

theorem limited_next {s : Resp} {x : Nat} {t rest : Str} (h : RelL s (x :: t) rest) : ∃ s', s.getNext = .ok x s' ∧ RelL s' t rest := by
  obtain ⟨inp, e, mode, rl, c, cl, code, msg, hd, op, pa⟩ := s
  obtain ⟨hm, hl, h⟩ := h
  have hd' : t.length = dec rl := by
    simp only [List.length_cons] at hl
    rw [dec_pos (by omega)]; omega
  rcases h with ⟨h1, h2⟩ | ⟨h1, t', h2, h3⟩
  · simp only at hm h1 h2
    subst hm; subst h1; subst h2
    exact ⟨_, rfl, rfl, hd', .inl ⟨rfl, rfl⟩⟩
  · simp only at hm h1 h2 h3
    injection h2 with e1 e2
    subst hm; subst h1; subst e2; subst h3; subst e1
    exact ⟨_, rfl, rfl, hd', .inl ⟨rfl, rfl⟩⟩

/-- C116: a body of known length, read without going behind its end.  Missing: `getNext` and `peek` at the end, input that ends early (violated below). -/
theorem C116_limited_partial : ∀ (os : List Op) {s : Resp} {t rest : Str}, RelL s t rest → Fits t os → run s os = plain t os
  | [], _, _, _, _, _ => rfl
  | .has :: os, s, t, rest, h, hf => by
    rw [run, limited_has h]
    simp only [plain]
    rw [C116_limited_partial os h hf]
  | .peek :: os, s, [], _, _, hf => absurd rfl hf.1
  | .peek :: os, s, x :: t, rest, h, hf => by
    obtain ⟨s', e, h'⟩ := limited_peek h
    rw [run, e]
    simp only [plain]
    rw [C116_limited_partial os h' hf.2]; rfl
  | .next :: os, s, [], _, _, hf => absurd rfl hf.1
  | .next :: os, s, x :: t, rest, h, hf => by
    obtain ⟨s', e, h'⟩ := limited_next h
    rw [run, e]
    simp only [plain]
    rw [C116_limited_partial os h' hf.2]; rfl

/-- C116: `reset` reads the rest of the body and nothing of what follows, unless the length is 2^64-1. -/
theorem C116_reset_partial {s : Resp} {t rest : Str} (h : RelL s t rest) (ho : s.opened = true) (hp : s.parsed = true) (hl : s.readLen < 18446744073709551615) :
    ∃ s', s.reset = .ok true s' ∧ s'.inp = rest ∧ s'.opened = false ∧ s'.hdrs = [] := by
  have hd : ∀ (t : Str) (n : Nat) (s : Resp), RelL s t rest → t.length < n → ∃ s', drain n s = .ok () s' ∧ s'.inp = rest := by
    intro t
    induction t with
    | nil =>
      intro n s h hn
      obtain ⟨n, rfl⟩ : ∃ m, n = m + 1 := ⟨n - 1, by omega⟩
      rw [drain, limited_has h]
      obtain ⟨_, _, ⟨_, h2⟩ | ⟨_, t', h2, _⟩⟩ := h
      · exact ⟨s, rfl, h2⟩
      · cases h2
    | cons x t ih =>
      intro n s h hn
      rw [List.length_cons] at hn
      obtain ⟨n, rfl⟩ : ∃ m, n = m + 1 := ⟨n - 1, by omega⟩
      obtain ⟨s1, e1, h1⟩ := limited_next h
      obtain ⟨s2, e2, h2⟩ := ih n s1 h1 (by omega)
      refine ⟨s2, ?_, h2⟩
      rw [drain, limited_has h]
      show (match s.getNext with | .ok _ s => drain n s | .thrown s => .thrown s | .hang => .hang | .ub => .ub) = _
      rw [e1]
      exact e2
  have hlen : t.length < s.inp.length + 2 := by
    obtain ⟨_, _, ⟨_, h2⟩ | ⟨_, t', h2, h3⟩⟩ := h
    · rw [h2, List.length_append]; omega
    · rw [h2, h3, List.length_append, List.length_cons]; omega
  obtain ⟨s2, e2, h2⟩ := hd t _ s h hlen
  have hn : s.readLen ≠ null := by unfold null; omega
  refine ⟨{ s2 with code := 0, msg := [], hdrs := [], opened := false, parsed := false, eof := false }, ?_, h2, rfl, rfl⟩
  simp only [Resp.reset, ho, hp, if_true, hn, ne_eq, not_false_eq_true, e2]

/-- The claim in full: every sequence of calls. -/
def Claim116 : Prop := ∀ (os : List Op) (s : Resp) (t rest : Str), RelL s t rest → run s os = plain t os

/-- At the end of the body `getNext` gives the first byte of what follows; then 2^64-1 bytes are to come. -/
theorem C116_end_violated {s : Resp} {x : Nat} {rest : Str} (h : RelL s [] (x :: rest)) :
    ∃ s', s.getNext = .ok x s' ∧ s'.inp = rest ∧ s'.readLen = null ∧ s'.hasItems = .ok true s' := by
  obtain ⟨inp, e, mode, rl, c, cl, code, msg, hd, op, pa⟩ := s
  obtain ⟨hm, hl, ⟨h1, h2⟩ | ⟨_, t', h2, _⟩⟩ := h
  · simp only [List.length_nil] at hm h1 h2 hl
    subst hm; subst h1; subst h2; subst hl
    exact ⟨_, rfl, rfl, rfl, rfl⟩
  · cases h2

theorem C116_violated : ¬ Claim116 := by
  intro h
  have := h [.next] { inp := [72], mode := .limited } [] [72] ⟨rfl, rfl, .inl ⟨rfl, rfl⟩⟩
  revert this
  decide

/-- When the input ends early, `hasItems` is true and `getNext` throws. -/
theorem C116_cut_violated {s : Resp} (hm : s.mode = .limited) (hi : s.inp = []) (hc : s.cloaded = false) (hr : 0 < s.readLen) :
    s.hasItems = .ok true s ∧ ∃ s', s.getNext = .thrown s' ∧ s'.hasItems = .ok true s' := by
  obtain ⟨inp, e, mode, rl, c, cl, code, msg, hd, op, pa⟩ := s
  simp only at hm hi hc hr
  subst hm; subst hi; subst hc
  exact ⟨by simp [Resp.hasItems, hr], ⟨[], true, .limited, rl, c, false, code, msg, hd, op, pa⟩, rfl, by simp [Resp.hasItems, hr]⟩

/-- Concrete cases. -/
example : run { inp := [97, 98, 99], mode := .limited, readLen := 2 } [.has, .peek, .next, .next, .has, .has] =
    [.has true, .peek (some 97), .next (some 97), .next (some 98), .has false, .has false] := by decide
example : run { inp := [97], mode := .direct } [.has, .next, .next, .has] = [.has true, .next (some 97), .next none, .has false] := by decide

/-! ## C117: heads -/

/-- A line of the head. -/
structure Field where
  name : Str
  pre : Str
  value : Str
  post : Str

def Field.text (f : Field) : Str := f.name ++ 58 :: (f.pre ++ f.value ++ f.post)

/-- Blanks in a head: space and tabulator. -/
def ws (c : Nat) : Bool := c == 32 || c == 9

/-- No blank at the ends. -/
def Tight (l : Str) : Prop := (∀ c, l.head? = some c → ws c = false) ∧ ∀ c, l.getLast? = some c → ws c = false

structure Field.Wf (f : Field) : Prop where
  colon : 58 ∉ f.name
  line : 10 ∉ f.text
  name : Tight f.name
  value : Tight f.value
  pre : ∀ c, c ∈ f.pre → ws c = true
  post : ∀ c, c ∈ f.post → ws c = true

/-- The value of the first line with the name. -/
def lookup (fs : List Field) (k : Str) : Str := ((fs.find? fun f => f.name = k).map Field.value).getD []

/-- `d` is the decimal number `n`. -/
def DecNum (d : Str) (n : Nat) : Prop := d ≠ [] ∧ (∀ c, c ∈ d → 48 ≤ c ∧ c ≤ 57) ∧ d.foldl (fun v c => 10 * v + (c - 48)) 0 = n

theorem dropWhile_pre {p : Nat → Bool} : ∀ (a b : Str), (∀ c, c ∈ a → p c = true) → (a ++ b).dropWhile p = b.dropWhile p
  | [], _, _ => rfl
  | x :: a, b, h => by
    rw [List.cons_append, List.dropWhile_cons_of_pos (h x List.mem_cons_self)]
    exact dropWhile_pre a b fun c hc => h c (List.mem_cons_of_mem _ hc)

theorem dropWhile_all {p : Nat → Bool} (a : Str) (h : ∀ c, c ∈ a → p c = true) : a.dropWhile p = [] := by
  have := dropWhile_pre a [] h
  rwa [List.append_nil] at this

theorem trim_ok {pre v post : Str} (h1 : ∀ c, c ∈ pre → ws c = true) (h2 : Tight v) (h3 : ∀ c, c ∈ post → ws c = true) : trim (pre ++ v ++ post) = v := by
  unfold trim
  have hb : blank = ws := rfl
  rw [hb]
  rw [List.append_assoc, dropWhile_pre pre _ h1]
  cases v with
  | nil =>
    rw [List.nil_append, dropWhile_all post h3]; rfl
  | cons x v =>
    have hx := h2.1 x rfl
    rw [List.cons_append, List.dropWhile_cons_of_neg (by rw [hx]; decide), ← List.cons_append, List.reverse_append,
      dropWhile_pre post.reverse _ (fun c hc => h3 c (List.mem_reverse.mp hc))]
    cases hr : (x :: v).reverse with
    | nil => simp at hr
    | cons y r =>
      have hy : ws y = false := by
        refine h2.2 y ?_
        rw [← List.head?_reverse, hr]; rfl
      rw [List.dropWhile_cons_of_neg (by rw [hy]; decide), ← hr, List.reverse_reverse]

theorem name_trim {f : Field} (h : f.Wf) : trim (f.text.takeWhile (· ≠ 58)) = f.name := by
  have : f.text.takeWhile (· ≠ 58) = f.name := by
    unfold Field.text
    rw [List.takeWhile_append_of_pos (fun c hc => by simp; intro e; exact h.colon (e ▸ hc)), List.takeWhile_cons_of_neg (by simp), List.append_nil]
  rw [this]
  have := trim_ok (pre := []) (post := []) (by simp) h.name (by simp)
  simpa using this

theorem value_trim {f : Field} (h : f.Wf) : trim ((f.text.dropWhile (· ≠ 58)).drop 1) = f.value := by
  have : f.text.dropWhile (· ≠ 58) = 58 :: (f.pre ++ f.value ++ f.post) := by
    unfold Field.text
    rw [dropWhile_pre _ _ (fun c hc => by simp; intro e; exact h.colon (e ▸ hc)), List.dropWhile_cons_of_neg (by simp)]
  rw [this]
  exact trim_ok h.pre h.value h.post

/-- `Map::insert` of the fields. -/
def addAll (m : List (Str × Str)) (fs : List Field) : List (Str × Str) :=
  fs.foldl (fun m f => if m.any (fun kv => kv.1 = f.name) then m else m ++ [(f.name, f.value)]) m

theorem addAll_find (k : Str) : ∀ (fs : List Field) (m : List (Str × Str)), ((addAll m fs).find? fun kv => kv.1 = k).map Prod.snd =
    ((m.find? fun kv => kv.1 = k).map Prod.snd).or ((fs.find? fun f => f.name = k).map Field.value)
  | [], m => by simp [addAll]
  | f :: fs, m => by
    have e : addAll m (f :: fs) = addAll (if m.any (fun kv => kv.1 = f.name) then m else m ++ [(f.name, f.value)]) fs := rfl
    rw [e, addAll_find k fs]
    by_cases hk : f.name = k
    · rw [List.find?_cons_of_pos (by simpa using hk)]
      by_cases ha : m.any (fun kv => kv.1 = f.name) = true
      · rw [if_pos ha]
        obtain ⟨kv, h1, h2⟩ := List.any_eq_true.mp ha
        cases hf : m.find? (fun kv => kv.1 = k) with
        | none =>
          have := List.find?_eq_none.mp hf kv h1
          rw [← hk] at this
          exact absurd h2 this
        | some y => simp
      · rw [if_neg ha]
        have hn : m.find? (fun kv => kv.1 = k) = none := by
          refine List.find?_eq_none.mpr fun kv h1 h2 => ha ?_
          refine List.any_eq_true.mpr ⟨kv, h1, ?_⟩
          rw [hk]; exact h2
        rw [List.find?_append, hn]
        simp [hk]
    · rw [List.find?_cons_of_neg (by simpa using hk)]
      by_cases ha : m.any (fun kv => kv.1 = f.name) = true
      · rw [if_pos ha]
      · rw [if_neg ha, List.find?_append]
        simp [hk]

theorem hdrLoop_ok {rest : Str} : ∀ (fs : List Field) (n : Nat) (s : Resp), (∀ f, f ∈ fs → f.Wf) → s.eof = false → s.inp = (fs.flatMap fun f => f.text ++ crlf) ++ (crlf ++ rest) → fs.length < n →
    hdrLoop n s.readLine.1 s.readLine.2 = .ok true { s with inp := rest, hdrs := addAll s.hdrs fs }
  | [], n, s, _, he, hi, hn => by
    obtain ⟨n, rfl⟩ : ∃ m, n = m + 1 := ⟨n - 1, by omega⟩
    rw [readLine_ok (l := []) he hi (by simp), hdrLoop, if_pos rfl]
    rfl
  | f :: fs, n, s, hw, he, hi, hn => by
    rw [List.length_cons] at hn
    obtain ⟨n, rfl⟩ : ∃ m, n = m + 1 := ⟨n - 1, by omega⟩
    have hf := hw f List.mem_cons_self
    have hm : 58 ∈ f.text := by unfold Field.text; simp
    have h0 : f.text ≠ [] := fun q => by rw [q] at hm; cases hm
    rw [readLine_ok (l := f.text) he (r := (fs.flatMap fun f => f.text ++ crlf) ++ (crlf ++ rest)) (by rw [hi]; simp [List.append_assoc]) hf.line, hdrLoop, if_neg h0, if_pos hm]
    simp only [name_trim hf, value_trim hf]
    by_cases ha : s.hdrs.any (fun kv => kv.1 = f.name) = true
    · rw [if_pos ha]
      have := hdrLoop_ok fs n { s with inp := (fs.flatMap fun f => f.text ++ crlf) ++ (crlf ++ rest) } (fun g hg => hw g (List.mem_cons_of_mem _ hg)) he rfl (by omega)
      rw [this]
      have e : addAll s.hdrs (f :: fs) = addAll (if s.hdrs.any (fun kv => kv.1 = f.name) then s.hdrs else s.hdrs ++ [(f.name, f.value)]) fs := rfl
      rw [e, if_pos ha]
    · rw [if_neg ha]
      have := hdrLoop_ok fs n { s with inp := (fs.flatMap fun f => f.text ++ crlf) ++ (crlf ++ rest), hdrs := s.hdrs ++ [(f.name, f.value)] }
        (fun g hg => hw g (List.mem_cons_of_mem _ hg)) he rfl (by omega)
      rw [this]
      have e : addAll s.hdrs (f :: fs) = addAll (if s.hdrs.any (fun kv => kv.1 = f.name) then s.hdrs else s.hdrs ++ [(f.name, f.value)]) fs := rfl
      rw [e, if_neg ha]

theorem dec_ge (h : Str) : ∀ v, v ≤ h.foldl (fun v c => 10 * v + (c - 48)) v := by
  induction h with
  | nil => intro v; exact Nat.le_refl v
  | cons c h ih =>
    intro v
    have := ih (10 * v + (c - 48))
    rw [List.foldl_cons]; omega

theorem parseRest_dec : ∀ (d : Str) (v : Nat), (∀ c, c ∈ d → 48 ≤ c ∧ c ≤ 57) → d.foldl (fun v c => 10 * v + (c - 48)) v < 18446744073709551616 →
    parseRest 10 v d = d.foldl (fun v c => 10 * v + (c - 48)) v
  | [], _, _, _ => rfl
  | c :: d, v, h, hl => by
    rw [List.foldl_cons] at hl ⊢
    have h1 := dec_ge d (10 * v + (c - 48))
    have hc := h c List.mem_cons_self
    rw [parseRest, if_pos (by omega), Nat.mul_comm v 10, Nat.mod_eq_of_lt (by omega)]
    exact parseRest_dec d _ (fun c hc => h c (List.mem_cons_of_mem _ hc)) hl

theorem parse_dec {d : Str} {n : Nat} (h : DecNum d n) (hn : n < 18446744073709551616) : parseNumber d 10 = n := by
  obtain ⟨h0, h1, rfl⟩ := h
  cases d with
  | nil => exact absurd rfl h0
  | cons c d =>
    have hc := h1 c List.mem_cons_self
    rw [List.foldl_cons, Nat.mul_zero, Nat.zero_add] at hn
    rw [parseNumber, parseFirst, if_pos (by omega), List.foldl_cons, Nat.mul_zero, Nat.zero_add]
    exact parseRest_dec d _ (fun c hc => h1 c (List.mem_cons_of_mem _ hc)) hn

/-- The head of a response. -/
structure HeadOf where
  ver : Str
  code : Str
  msg : Str
  fields : List Field

def HeadOf.text (h : HeadOf) : Str := h.ver ++ 32 :: (h.code ++ 32 :: h.msg) ++ crlf ++ (h.fields.flatMap fun f => f.text ++ crlf) ++ crlf

structure HeadOf.Wf (h : HeadOf) : Prop where
  ver : 32 ∉ h.ver
  code : 32 ∉ h.code
  line : 10 ∉ h.ver ++ 32 :: (h.code ++ 32 :: h.msg)
  fields : ∀ f, f ∈ h.fields → f.Wf

/-- How the body is read. -/
def modeOf (fs : List Field) (s : Resp) : Prop :=
  s.cloaded = false ∧ s.eof = false ∧ s.opened = true ∧ s.parsed = true ∧
  if lookup fs teName = chunkedName then s.mode = .chunked ∧ s.readLen = 0
  else if lookup fs clName = [] then s.mode = .direct
  else s.mode = .limited ∧ ∀ n, n < 18446744073709551616 → DecNum (lookup fs clName) n → s.readLen = n

theorem takeWhile_ne {a b : Str} {x : Nat} (h : x ∉ a) : (a ++ x :: b).takeWhile (· ≠ x) = a := by
  rw [List.takeWhile_append_of_pos (fun c hc => by simp; intro e; exact h (e ▸ hc)), List.takeWhile_cons_of_neg (by simp), List.append_nil]

/-- C117: `open` reads the head: code, message and all fields, names and values without blanks around, the first field of a name counts; the body begins behind the head, and the fields choose how
it is read.  Missing: names in other letters, status lines without message, input that ends in the head (violated below). -/
theorem C117_open_partial {h : HeadOf} (hw : h.Wf) {s : Resp} {rest : Str} {n : Nat} (ho : s.opened = false) (hh : s.hdrs = []) (hi : s.inp = h.text ++ rest) (hc : DecNum h.code n)
    (hn : n < 18446744073709551616) :
    ∃ s', s.openResp = .ok n s' ∧ s'.inp = rest ∧ s'.code = n ∧ s'.msg = h.msg ∧ (∀ k, s'.getHeader k = lookup h.fields k) ∧ modeOf h.fields s' := by
  have hfull : fullLine (s.inp.length + 2) { s with opened := true, parsed := false, eof := false } = .ok (h.ver ++ 32 :: (h.code ++ 32 :: h.msg))
      { s with opened := true, parsed := false, eof := false, inp := (h.fields.flatMap fun f => f.text ++ crlf) ++ (crlf ++ rest) } :=
    fullLine_ok _ (s := { s with opened := true, parsed := false, eof := false }) rfl (by show s.inp = _; rw [hi]; unfold HeadOf.text; simp [List.append_assoc]) hw.line (by simp)
  have hv : (h.ver ++ 32 :: (h.code ++ 32 :: h.msg)).takeWhile (· ≠ 32) = h.ver := takeWhile_ne hw.ver
  have hl2 : (h.ver ++ 32 :: (h.code ++ 32 :: h.msg)).drop (h.ver.length + 1) = h.code ++ 32 :: h.msg := by
    rw [List.drop_append]; simp
  have hcd : (h.code ++ 32 :: h.msg).takeWhile (· ≠ 32) = h.code := takeWhile_ne hw.code
  have hms : (h.code ++ 32 :: h.msg).drop (h.code.length + 1) = h.msg := by
    rw [List.drop_append]; simp
  have hnum := parse_dec hc hn
  obtain ⟨r1, hr1, hr2⟩ : ∃ r1 : Str × Resp, ({ s with opened := true, parsed := false, eof := false, inp := (h.fields.flatMap fun f => f.text ++ crlf) ++ (crlf ++ rest), msg := h.msg, code := n } : Resp).readLine = r1 ∧ h.fields.length < r1.2.inp.length + 2 := by
    refine ⟨_, rfl, ?_⟩
    have hflat : ∀ fs : List Field, fs.length ≤ ((fs.flatMap fun f => f.text ++ crlf)).length := by
      intro fs
      induction fs with
      | nil => exact Nat.le_refl 0
      | cons f fs ih => rw [List.flatMap_cons, List.length_append, List.length_append, List.length_cons]; have : crlf.length = 2 := rfl; omega
    cases hf : h.fields with
    | nil => simp
    | cons f fs =>
      rw [readLine_ok (l := f.text) rfl (r := (fs.flatMap fun f => f.text ++ crlf) ++ (crlf ++ rest)) (by simp [List.append_assoc]) (hw.fields f (by rw [hf]; exact List.mem_cons_self)).line]
      have := hflat fs
      simp only [List.length_append, List.length_cons]
      omega
  have hloop := hdrLoop_ok (rest := rest) h.fields (r1.2.inp.length + 2)
    { s with opened := true, parsed := false, eof := false, inp := (h.fields.flatMap fun f => f.text ++ crlf) ++ (crlf ++ rest), msg := h.msg, code := n } hw.fields rfl rfl hr2
  rw [hr1] at hloop
  have hget : ∀ (k : Str) (s' : Resp), s'.hdrs = addAll s.hdrs h.fields → s'.getHeader k = lookup h.fields k := by
    intro k s' e
    have := addAll_find k h.fields s.hdrs
    unfold Resp.getHeader lookup
    rw [e]
    rw [hh] at this ⊢
    simp only [List.find?_nil, Option.map_none, Option.none_or] at this
    rw [← this]
    cases (addAll [] h.fields).find? fun kv => kv.1 = k <;> rfl
  have hopen : s.openResp = (if lookup h.fields teName = chunkedName then
        .ok n { s with inp := rest, eof := false, mode := .chunked, readLen := 0, cloaded := false, code := n, msg := h.msg, hdrs := addAll s.hdrs h.fields, opened := true, parsed := true }
      else if lookup h.fields clName ≠ [] then
        .ok n { s with inp := rest, eof := false, mode := .limited, readLen := parseNumber (lookup h.fields clName) 10, cloaded := false, code := n, msg := h.msg, hdrs := addAll s.hdrs h.fields, opened := true, parsed := true }
      else .ok n { s with inp := rest, eof := false, mode := .direct, readLen := null, cloaded := false, code := n, msg := h.msg, hdrs := addAll s.hdrs h.fields, opened := true, parsed := true }) := by
    unfold Resp.openResp
    rw [ho]
    simp only [Bool.false_eq_true, if_false]
    rw [hfull]
    simp only [hv, hl2, hcd, hms, hnum]
    rw [if_pos (by simp), if_pos (by simp), hr1]
    simp only [hloop]
    rw [hget teName _ rfl, hget clName _ rfl]
  rw [hopen]
  by_cases h1 : lookup h.fields teName = chunkedName
  · rw [if_pos h1]
    refine ⟨_, rfl, rfl, rfl, rfl, fun k => hget k _ rfl, rfl, rfl, rfl, rfl, ?_⟩
    rw [if_pos h1]; exact ⟨rfl, rfl⟩
  · rw [if_neg h1]
    by_cases h2 : lookup h.fields clName = []
    · rw [if_neg (by simpa using h2)]
      refine ⟨_, rfl, rfl, rfl, rfl, fun k => hget k _ rfl, rfl, rfl, rfl, rfl, ?_⟩
      rw [if_neg h1, if_pos h2]
    · rw [if_pos h2]
      refine ⟨_, rfl, rfl, rfl, rfl, fun k => hget k _ rfl, rfl, rfl, rfl, rfl, ?_⟩
      rw [if_neg h1, if_neg h2]
      exact ⟨rfl, fun m hm hd => parse_dec hd hm⟩

/-- C116, C117: head and body of known length together: every sequence of calls that does not read behind the end gives the body. -/
theorem C117_body_partial {h : HeadOf} (hw : h.Wf) {s : Resp} {body rest : Str} {n : Nat} (ho : s.opened = false) (hh : s.hdrs = []) (hi : s.inp = h.text ++ (body ++ rest)) (hc : DecNum h.code n)
    (hn : n < 18446744073709551616) (h1 : lookup h.fields teName ≠ chunkedName) (h2 : DecNum (lookup h.fields clName) body.length) (hb : body.length < 18446744073709551616) :
    ∃ s', s.openResp = .ok n s' ∧ RelL s' body rest ∧ ∀ os, Fits body os → run s' os = plain body os := by
  obtain ⟨s', e, e1, _, _, _, m1, m2, m3, m4, m5⟩ := C117_open_partial hw ho hh hi hc hn
  rw [if_neg h1, if_neg h2.1] at m5
  have hr : RelL s' body rest := ⟨m5.1, (m5.2 _ hb h2).symm, .inl ⟨m1, e1⟩⟩
  exact ⟨s', e, hr, fun os hf => C116_limited_partial os hr hf⟩

/-- C115, C117: head and chunked body together. -/
theorem C117_chunked_partial {h : HeadOf} (hw : h.Wf) {s : Resp} {body rest wire : Str} {n : Nat} (ho : s.opened = false) (hh : s.hdrs = []) (hi : s.inp = h.text ++ wire) (hc : DecNum h.code n)
    (hn : n < 18446744073709551616) (h1 : lookup h.fields teName = chunkedName) (hb : Chunked Good (fun tr => tr = []) wire body rest)
    (hl : body.length < 18446744073709551616) :
    ∃ s', s.openResp = .ok n s' ∧ ∀ os, runStop s' os = plainStop rest body os := by
  obtain ⟨s', e, e1, _, _, _, m1, m2, m3, m4, m5⟩ := C117_open_partial hw ho hh hi hc hn
  rw [if_pos h1] at m5
  exact ⟨s', e, fun os => C115_receive_partial os ⟨m5.1, m2, hl, .inl ⟨m1, m5.2, wire, .inl e1, hb⟩⟩⟩

/-- The claim in full: names in any letters, status lines without message. -/
def lower (k : Str) : Str := k.map fun c => if 65 ≤ c ∧ c ≤ 90 then c + 32 else c
def Claim117 : Prop := ∀ (h : HeadOf) (s : Resp) (rest : Str) (n : Nat), h.Wf → s.opened = false → s.hdrs = [] → s.inp = h.text ++ rest → DecNum h.code n → n < 18446744073709551616 →
  ∃ s', s.openResp = .ok n s' ∧ ∀ k, s'.getHeader k = ((h.fields.find? fun f => lower f.name = lower k).map Field.value).getD []

/-- The head `HTTP/1.1 200 OK`, `transfer-encoding: chunked`. -/
def small : HeadOf := ⟨[72, 84, 84, 80, 47, 49, 46, 49], [50, 48, 48], [79, 75], [⟨lower teName, [32], chunkedName, []⟩]⟩

theorem small_wf : small.Wf := by
  refine ⟨by decide, by decide, by decide, fun f hf => ?_⟩
  simp only [small, List.mem_cons, List.not_mem_nil, or_false] at hf
  subst hf
  exact ⟨by decide, by decide, ⟨by decide, by decide⟩, ⟨by decide, by decide⟩, by decide, by decide⟩

/-- Names are compared with their letters: a chunked body announced in small letters is handed out with its chunk sizes. -/
theorem C117_case_violated : ∃ s', ({ inp := small.text ++ [51, 13, 10, 97, 98, 99, 13, 10, 48, 13, 10, 13, 10] } : Resp).openResp = .ok 200 s' ∧ s'.mode = .direct ∧
    s'.getHeader teName = [] ∧ run s' [.next, .next, .next, .next] = [.next (some 51), .next (some 13), .next (some 10), .next (some 97)] :=
  ⟨⟨[51, 13, 10, 97, 98, 99, 13, 10, 48, 13, 10, 13, 10], false, .direct, null, 0, false, 200, [79, 75], [(lower teName, chunkedName)], true, true⟩, by decide, rfl, by decide, by decide⟩

theorem C117_violated : ¬ Claim117 := by
  intro h
  obtain ⟨s', e, hk⟩ := h small { inp := small.text } [] 200 small_wf rfl rfl (by simp) (by refine ⟨by decide, by decide, by decide⟩) (by decide)
  obtain ⟨s2, e2, _, _, _, hg, _⟩ := C117_open_partial small_wf (s := { inp := small.text }) (rest := []) (n := 200) rfl rfl (by simp) (by refine ⟨by decide, by decide, by decide⟩) (by decide)
  rw [e] at e2
  injection e2 with _ e2
  subst e2
  have h1 := hk teName
  rw [hg teName] at h1
  revert h1
  decide

/-- A status line that ends behind the code, without a blank: the message has the length 2^64-1. -/
theorem C117_reason_violated {ver code r : Str} {s : Resp} (ho : s.opened = false) (hi : s.inp = ver ++ 32 :: code ++ crlf ++ r) (h1 : 32 ∉ ver) (h2 : 32 ∉ code) (h3 : 10 ∉ ver ++ 32 :: code) : s.openResp = .ub := by
  have hfull : fullLine (s.inp.length + 2) { s with opened := true, parsed := false, eof := false } = .ok (ver ++ 32 :: code) { s with opened := true, parsed := false, eof := false, inp := r } :=
    fullLine_ok _ (s := { s with opened := true, parsed := false, eof := false }) rfl hi h3 (by simp)
  have hv : (ver ++ 32 :: code).takeWhile (· ≠ 32) = ver := takeWhile_ne h1
  have hl2 : (ver ++ 32 :: code).drop (ver.length + 1) = code := by
    rw [List.drop_append]; simp
  have hc : code.takeWhile (· ≠ 32) = code := by
    have := List.takeWhile_append_of_pos (p := (fun x : Nat => decide (x ≠ 32))) (l₁ := code) (l₂ := []) (fun c hc => by simp; intro e; exact h2 (e ▸ hc))
    simpa using this
  unfold Resp.openResp
  rw [ho]
  simp only [Bool.false_eq_true, if_false]
  rw [hfull]
  simp only [hv, hl2, hc]
  rw [if_pos (by simp), if_neg (by omega)]

/-- Input that ends before anything comes: `open` waits for ever. -/
theorem C117_empty_violated {s : Resp} (ho : s.opened = false) (hi : s.inp = []) : s.openResp = .hang := by
  obtain ⟨inp, e, mode, rl, c, cl, code, msg, hd, op, pa⟩ := s
  simp only at ho hi
  subst ho; subst hi
  rfl

/-- A head cut in the middle of a line is taken for a whole head without this line: here the length of the body is not seen, and there is no sign of it. -/
theorem C117_cut_violated : ∃ s', ({ inp := [72, 32, 50, 48, 48, 32, 79, 75, 13, 10] ++ clName ++ [58, 49] } : Resp).openResp = .ok 200 s' ∧ s'.mode = .direct ∧ s'.parsed = true ∧ s'.getHeader clName = [] ∧
    run s' [.has] = [.has false] :=
  ⟨⟨[], true, .direct, null, 0, false, 200, [79, 75], [], true, true⟩, by decide, rfl, rfl, rfl, by decide⟩

/-! ### Heads of requests -/

/-- The value added last. -/
def lastOf (hs : List (Str × Str)) (k : Str) : Option Str := (hs.reverse.find? fun kv => kv.1 = k).map Prod.snd

theorem replace_ne {k k' v : Str} (h : k' ≠ k) : ∀ m, (replace k v m).filter (fun kv => kv.1 = k') = m.filter (fun kv => kv.1 = k')
  | [] => by simp [replace, Ne.symm h]
  | (a, b) :: m => by
    rw [replace]
    by_cases e : a = k
    · subst e; simp [Ne.symm h]
    · rw [if_neg e]
      by_cases e2 : a = k'
      · subst e2; simp [replace_ne h m]
      · simp [e2, replace_ne h m]

theorem replace_eq {k v : Str} : ∀ m, (m.filter (fun kv => kv.1 = k)).length ≤ 1 → (replace k v m).filter (fun kv => kv.1 = k) = [(k, v)]
  | [], _ => by simp [replace]
  | (a, b) :: m, h => by
    rw [replace]
    by_cases e : a = k
    · subst e
      simp only [List.filter_cons, decide_true, if_true, List.length_cons] at h
      have : m.filter (fun kv => kv.1 = a) = [] := List.length_eq_zero_iff.mp (by omega)
      simp [this]
    · rw [if_neg e]
      simp only [List.filter_cons, e, decide_false, Bool.false_eq_true, if_false] at h ⊢
      exact replace_eq m h

/-- Headers added one after another. -/
def Req.addHeaders (s : Req) (hs : List (Str × Str)) : Req := hs.foldl (fun s kv => s.addHeader kv.1 kv.2) s

theorem added (s : Req) (h : s.hdrs = []) : ∀ (hs : List (Str × Str)) (k : Str), (((s.addHeaders hs.reverse).hdrs).filter (fun kv => kv.1 = k)).map Prod.snd = (lastOf hs.reverse k).toList
  | [], k => by simp [Req.addHeaders, h, lastOf]
  | (a, b) :: hs, k => by
    have ih := added s h hs
    have e : (s.addHeaders ((a, b) :: hs).reverse).hdrs = replace a b (s.addHeaders hs.reverse).hdrs := by
      simp [Req.addHeaders, Req.addHeader]
    rw [e]
    by_cases hk : a = k
    · subst hk
      have hl : ((s.addHeaders hs.reverse).hdrs.filter (fun kv => kv.1 = a)).length ≤ 1 := by
        have := congrArg List.length (ih a)
        rw [List.length_map] at this
        rw [this]
        cases lastOf hs.reverse a <;> simp
      rw [replace_eq _ hl]
      simp [lastOf]
    · rw [replace_ne (Ne.symm hk), ih k]
      simp [lastOf, hk]

theorem added_fields (s : Req) (hs : List (Str × Str)) : (s.addHeaders hs).out = s.out ∧ (s.addHeaders hs).method = s.method ∧ (s.addHeaders hs).path = s.path := by
  induction hs generalizing s with
  | nil => exact ⟨rfl, rfl, rfl⟩
  | cons a hs ih => exact ih (s.addHeader a.1 a.2)

/-- C117: the head of a request has the line with method and path, each header once with the value added last, and an empty line; the announcement of chunks when there is a body.
Missing: Content-Length must not be sent together with chunks (violated below). -/
theorem C117_request_partial {s : Req} (h : s.hdrs = []) (hs : List (Str × Str)) (body : Bool) (ht : ∀ kv, kv ∈ hs → kv.1 ≠ clName ++ [9]) :
    ∃ fs : List Field, ((s.addHeaders hs).sendHeaders body).out = s.out ++ (s.method ++ [32] ++ s.path ++ [32, 72, 84, 84, 80, 47, 49, 46, 49] ++ crlf ++ (fs.flatMap fun f => f.text ++ crlf) ++ crlf) ∧
      (∀ f, f ∈ fs → f.pre = [32] ∧ f.post = []) ∧
      ∀ k, (fs.filter (fun f => f.name = k)).map Field.value = (lastOf (if body then hs ++ [(teName, chunkedName)] else hs) k).toList := by
  obtain ⟨L, hL⟩ : ∃ L, L = if body then hs ++ [(teName, chunkedName)] else hs := ⟨_, rfl⟩
  have hLt : ∀ kv, kv ∈ L → kv.1 ≠ clName ++ [9] := by
    intro kv hkv
    rw [hL] at hkv
    cases body with
    | false => exact ht kv hkv
    | true =>
      rcases List.mem_append.mp hkv with q | q
      · exact ht kv q
      · rw [List.mem_singleton.mp q]; decide
  have hm := added s h L.reverse
  rw [List.reverse_reverse] at hm
  have hk : (s.addHeaders L).hdrs.filter (fun kv => kv.1 ≠ clName ++ [9]) = (s.addHeaders L).hdrs := by
    refine List.filter_eq_self.mpr fun kv hkv => ?_
    have := hm kv.1
    refine decide_eq_true fun q => ?_
    have hnone : lastOf L kv.1 = none := by
      unfold lastOf
      rw [List.find?_eq_none.mpr]; rfl
      intro x hx hx2
      exact hLt x (List.mem_reverse.mp hx) ((of_decide_eq_true hx2).trans q)
    rw [hnone] at this
    have h0 := List.map_eq_nil_iff.mp this
    have : kv ∈ (s.addHeaders L).hdrs.filter (fun x => x.1 = kv.1) := List.mem_filter.mpr ⟨hkv, by simp⟩
    rw [h0] at this
    cases this
  obtain ⟨f1, f2, f3⟩ := added_fields s L
  have e : ((s.addHeaders hs).sendHeaders body).out = s.out ++ s.method ++ [32] ++ s.path ++ [32, 72, 84, 84, 80, 47, 49, 46, 49] ++ crlf ++
      ((s.addHeaders L).hdrs.flatMap fun kv => kv.1 ++ [58, 32] ++ kv.2 ++ crlf) ++ crlf := by
    obtain ⟨g1, g2, g3⟩ := added_fields s hs
    cases body with
    | false =>
      subst hL
      simp only [Req.sendHeaders, Bool.false_eq_true, if_false, g1, g2, g3]
    | true =>
      have hA : (s.addHeaders L) = (s.addHeaders hs).addHeader teName chunkedName := by
        rw [hL]; simp [Req.addHeaders]
      rw [hA] at hk f1 f2 f3 ⊢
      simp only [Req.sendHeaders, if_true, hk, f1, f2, f3]
  refine ⟨(s.addHeaders L).hdrs.map fun kv => ⟨kv.1, [32], kv.2, []⟩, ?_, ?_, ?_⟩
  · rw [e, List.flatMap_map]
    simp [Field.text, List.append_assoc]
  · intro f hf
    obtain ⟨kv, _, rfl⟩ := List.mem_map.mp hf
    exact ⟨rfl, rfl⟩
  · intro k
    rw [← hL, ← hm k, List.filter_map, List.map_map]
    rfl

/-- A length given before `beginBody` is sent together with the announcement of chunks. -/
theorem C117_length_violated : ((({} : Req).addHeader clName [53]).beginBody).out = [32, 32, 72, 84, 84, 80, 47, 49, 46, 49] ++ crlf ++ (clName ++ [58, 32, 53] ++ crlf) ++
    (teName ++ [58, 32] ++ chunkedName ++ crlf) ++ crlf := by decide

/-- Concrete case: a head with two fields, one of them twice. -/
example : ∃ s', ({ inp := [72, 32, 50, 48, 52, 32, 78, 111, 13, 10, 65, 58, 32, 49, 32, 13, 10, 65, 58, 50, 13, 10, 66, 58, 51, 13, 10, 13, 10, 88] } : Resp).openResp = .ok 204 s' ∧
    s'.getHeader [65] = [49] ∧ s'.getHeader [66] = [51] ∧ s'.getHeader [67] = [] ∧ s'.msg = [78, 111] ∧ s'.inp = [88] :=
  ⟨⟨[88], false, .direct, null, 0, false, 204, [78, 111], [([65], [49]), ([66], [51])], true, true⟩, by decide, by decide, by decide, by decide, rfl, rfl⟩

end LS.Http

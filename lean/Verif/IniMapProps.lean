import Verif.Ini
/-
C119, C120: looking for fields of INI files and listing them.
-/
namespace LS.Ini

/-! ## Specification -/

/-- Text in small letters. -/
def low (s : Str) : Str := s.map fun c => if 65 ≤ c ∧ c ≤ 90 then c + 32 else c

/-- The values of a field, in the order of the file. -/
def valuesOf (es : List Entry) (s f : Str) : List Str :=
  es.filterMap fun e => match e with
    | .field s' f' v => if low s' = low s ∧ low f' = low f then some v else none
    | _ => none

/-- No zero in names. -/
def NoNul (es : List Entry) : Prop := ∀ s f v, Entry.field s f v ∈ es → 0 ∉ s ∧ 0 ∉ f

/-! ## The order -/

def cmpL : Str → Str → Ordering
  | [], [] => .eq
  | [], _ :: _ => .lt
  | _ :: _, [] => .gt
  | a :: as, b :: bs => if a < b then .lt else if b < a then .gt else cmpL as bs

theorem cmpL_eq : ∀ a b, cmpL a b = .eq ↔ a = b
  | [], [] => by simp [cmpL]
  | [], _ :: _ => by simp [cmpL]
  | _ :: _, [] => by simp [cmpL]
  | a :: as, b :: bs => by
    rw [cmpL]
    by_cases h1 : a < b
    · rw [if_pos h1]; simp; omega
    · rw [if_neg h1]
      by_cases h2 : b < a
      · rw [if_pos h2]; simp; omega
      · rw [if_neg h2, cmpL_eq as bs]
        have : a = b := by omega
        simp [this]

theorem cmpL_swap : ∀ a b, cmpL a b = .lt ↔ cmpL b a = .gt
  | [], [] => by simp [cmpL]
  | [], _ :: _ => by simp [cmpL]
  | _ :: _, [] => by simp [cmpL]
  | a :: as, b :: bs => by
    rw [cmpL, cmpL]
    by_cases h1 : a < b
    · rw [if_pos h1, if_neg (by omega), if_pos h1]; simp
    · rw [if_neg h1]
      by_cases h2 : b < a
      · rw [if_pos h2, if_pos h2]; simp
      · rw [if_neg h2, if_neg h2, if_neg h1]; exact cmpL_swap as bs

theorem cmpL_trans : ∀ a b c, cmpL a b = .lt → cmpL b c = .lt → cmpL a c = .lt
  | [], [], _, h, _ => by simp [cmpL] at h
  | _ :: _, [], _, h, _ => by simp [cmpL] at h
  | _, _ :: _, [], _, h => by simp [cmpL] at h
  | [], _ :: _, _ :: _, _, _ => rfl
  | a :: as, b :: bs, c :: cs, h1, h2 => by
    rw [cmpL] at h1 h2 ⊢
    by_cases ab : a < b
    · by_cases bc : b < c
      · rw [if_pos (by omega)]
      · rw [if_neg bc] at h2
        by_cases cb : c < b
        · rw [if_pos cb] at h2; cases h2
        · rw [if_pos (by omega)]
    · rw [if_neg ab] at h1
      by_cases ba : b < a
      · rw [if_pos ba] at h1; cases h1
      · rw [if_neg ba] at h1
        by_cases bc : b < c
        · rw [if_pos (by omega)]
        · rw [if_neg bc] at h2
          by_cases cb : c < b
          · rw [if_pos cb] at h2; cases h2
          · rw [if_neg cb] at h2
            rw [if_neg (by omega), if_neg (by omega)]
            exact cmpL_trans as bs cs h1 h2

theorem ci_eq : ∀ a b : Str, 0 ∉ a → ci a b = cmpL (low a) (low b)
  | [], [], _ => rfl
  | [], _ :: _, _ => by simp [ci, ncase, cmpL, low]
  | _ :: _, [], _ => by simp [ci, ncase, cmpL, low]
  | a :: as, b :: bs, h => by
    have ih := ci_eq as bs fun q => h (List.mem_cons_of_mem _ q)
    have h0 : ¬ a = 0 := fun q => h (by rw [q]; exact List.mem_cons_self)
    have e : cmpL (low (a :: as)) (low (b :: bs)) = if lower a < lower b then .lt else if lower b < lower a then .gt else cmpL (low as) (low bs) := rfl
    rw [e, ← ih]
    unfold ci
    rw [ncase]
    by_cases h1 : lower a < lower b
    · rw [if_pos h1, if_pos h1]
    · rw [if_neg h1, if_neg h1]
      by_cases h2 : lower b < lower a
      · rw [if_pos h2, if_pos h2]
      · rw [if_neg h2, if_neg h2, if_neg h0]
        simp only [List.length_cons, Nat.add_le_add_iff_right]

/-- Order of keys in small letters. -/
def ltK (a b : Str × Str) : Prop := cmpL (low a.1) (low b.1) = .lt ∨ (low a.1 = low b.1 ∧ cmpL (low a.2) (low b.2) = .lt)
def eqK (a b : Str × Str) : Prop := low a.1 = low b.1 ∧ low a.2 = low b.2

instance (a b : Str × Str) : Decidable (eqK a b) := by unfold eqK; infer_instance

def KOk (k : Str × Str) : Prop := 0 ∉ k.1 ∧ 0 ∉ k.2

theorem less_iff {a b : Str × Str} (h : KOk a) : less a b = true ↔ ltK a b := by
  unfold less ltK
  rw [ci_eq a.1 b.1 h.1, ci_eq a.2 b.2 h.2]
  cases hc : cmpL (low a.1) (low b.1) with
  | lt => simp
  | gt =>
    have : low a.1 ≠ low b.1 := fun q => by rw [(cmpL_eq _ _).mpr q] at hc; cases hc
    simp [this]
  | eq =>
    have := (cmpL_eq _ _).mp hc
    simp [this]

theorem ltK_irrefl (a : Str × Str) : ¬ ltK a a := by
  rintro (h | ⟨_, h⟩)
  · rw [(cmpL_eq _ _).mpr rfl] at h; cases h
  · rw [(cmpL_eq _ _).mpr rfl] at h; cases h

theorem ltK_trans {a b c : Str × Str} (h1 : ltK a b) (h2 : ltK b c) : ltK a c := by
  rcases h1 with h1 | ⟨h1, h1'⟩
  · rcases h2 with h2 | ⟨h2, _⟩
    · exact .inl (cmpL_trans _ _ _ h1 h2)
    · exact .inl (h2 ▸ h1)
  · rcases h2 with h2 | ⟨h2, h2'⟩
    · exact .inl (by rw [h1]; exact h2)
    · exact .inr ⟨h1.trans h2, cmpL_trans _ _ _ h1' h2'⟩

theorem ltK_total (a b : Str × Str) : ltK a b ∨ eqK a b ∨ ltK b a := by
  unfold ltK eqK
  cases h : cmpL (low a.1) (low b.1) with
  | lt => exact .inl (.inl rfl)
  | gt => exact .inr (.inr (.inl ((cmpL_swap _ _).mpr h)))
  | eq =>
    have e := (cmpL_eq _ _).mp h
    cases h2 : cmpL (low a.2) (low b.2) with
    | lt => exact .inl (.inr ⟨e, rfl⟩)
    | gt => exact .inr (.inr (.inr ⟨e.symm, (cmpL_swap _ _).mpr h2⟩))
    | eq => exact .inr (.inl ⟨e, (cmpL_eq _ _).mp h2⟩)

theorem ltK_congr_left {a b c : Str × Str} (h : eqK a b) : ltK a c ↔ ltK b c := by
  unfold ltK; rw [h.1, h.2]

theorem ltK_congr_right {a b c : Str × Str} (h : eqK a b) : ltK c a ↔ ltK c b := by
  unfold ltK; rw [h.1, h.2]

theorem eqK_symm {a b : Str × Str} (h : eqK a b) : eqK b a := ⟨h.1.symm, h.2.symm⟩
theorem eqK_trans {a b c : Str × Str} (h : eqK a b) (h2 : eqK b c) : eqK a c := ⟨h.1.trans h2.1, h.2.trans h2.2⟩

theorem not_eqK {a b : Str × Str} (h : ltK a b) : ¬ eqK a b := fun q => ltK_irrefl b ((ltK_congr_left q).mp h)

/-- Sorted map. -/
def Sorted (m : Map) : Prop := m.Pairwise (fun a b => ltK a.1 b.1) ∧ ∀ e, e ∈ m → KOk e.1

/-- The values under a key. -/
def vals (m : Map) (k : Str × Str) : List Str := m.flatMap fun e => if eqK e.1 k then e.2 else []

theorem vals_gt {m : Map} {k : Str × Str} (h : ∀ e, e ∈ m → ltK k e.1) : vals m k = [] := by
  refine List.flatMap_eq_nil_iff.mpr fun e he => ?_
  rw [if_neg fun q => not_eqK (h e he) (eqK_symm q)]

theorem insert_mem {k : Str × Str} {v : Str} : ∀ {m : Map} {e : (Str × Str) × List Str}, e ∈ insert k v m → e.1 = k ∨ ∃ e', e' ∈ m ∧ e'.1 = e.1
  | [], e, h => .inl (by rw [insert, List.mem_singleton] at h; rw [h])
  | x :: m, e, h => by
    rw [insert] at h
    split at h
    · rcases List.mem_cons.mp h with h | h
      · exact .inl (by rw [h])
      · exact .inr ⟨e, h, rfl⟩
    · split at h
      · rcases List.mem_cons.mp h with h | h
        · exact .inr ⟨x, List.mem_cons_self, by rw [h]⟩
        · rcases insert_mem h with h | ⟨e', h1, h2⟩
          · exact .inl h
          · exact .inr ⟨e', List.mem_cons_of_mem _ h1, h2⟩
      · rcases List.mem_cons.mp h with h | h
        · exact .inr ⟨x, List.mem_cons_self, by rw [h]⟩
        · exact .inr ⟨e, List.mem_cons_of_mem _ h, rfl⟩

theorem insert_ok {k : Str × Str} {v : Str} (hk : KOk k) : ∀ {m : Map}, Sorted m → Sorted (insert k v m) ∧ ∀ q, vals (insert k v m) q = vals m q ++ if eqK k q then [v] else []
  | [], _ => by
    refine ⟨⟨List.pairwise_singleton _ _, fun e he => ?_⟩, fun q => ?_⟩
    · rw [insert, List.mem_singleton] at he; rw [he]; exact hk
    · simp [insert, vals]
  | x :: m, h => by
    have hx : KOk x.1 := h.2 x List.mem_cons_self
    obtain ⟨h1, h2⟩ := List.pairwise_cons.mp h.1
    have hm : Sorted m := ⟨h2, fun e he => h.2 e (List.mem_cons_of_mem _ he)⟩
    rw [insert]
    by_cases c1 : ltK k x.1
    · rw [if_pos ((less_iff hk).mpr c1)]
      have hall : ∀ e, e ∈ x :: m → ltK k e.1 := by
        intro e he
        rcases List.mem_cons.mp he with rfl | he
        · exact c1
        · exact ltK_trans c1 (h1 e he)
      refine ⟨⟨List.pairwise_cons.mpr ⟨hall, h.1⟩, fun e he => ?_⟩, fun q => ?_⟩
      · rcases List.mem_cons.mp he with rfl | he
        · exact hk
        · exact h.2 e he
      · have e : vals ((k, [v]) :: x :: m) q = (if eqK k q then [v] else []) ++ vals (x :: m) q := rfl
        rw [e]
        by_cases hq : eqK k q
        · rw [if_pos hq]
          have : vals (x :: m) q = [] := vals_gt fun e he => (ltK_congr_left hq).mp (hall e he)
          rw [this]; rfl
        · rw [if_neg hq]; simp
    · rw [if_neg (fun q => c1 ((less_iff hk).mp q))]
      by_cases c2 : ltK x.1 k
      · rw [if_pos ((less_iff hx).mpr c2)]
        obtain ⟨i1, i2⟩ := insert_ok hk (v := v) hm
        refine ⟨⟨List.pairwise_cons.mpr ⟨fun e he => ?_, i1.1⟩, fun e he => ?_⟩, fun q => ?_⟩
        · rcases insert_mem he with h3 | ⟨e', h3, h4⟩
          · rw [h3]; exact c2
          · rw [← h4]; exact h1 e' h3
        · rcases List.mem_cons.mp he with rfl | he
          · exact hx
          · exact i1.2 e he
        · have e : ∀ m' : Map, vals (x :: m') q = (if eqK x.1 q then x.2 else []) ++ vals m' q := fun _ => rfl
          rw [e, e, i2, List.append_assoc]
      · rw [if_neg (fun q => c2 ((less_iff hx).mp q))]
        have heq : eqK k x.1 := by
          rcases ltK_total k x.1 with q | q | q
          · exact absurd q c1
          · exact q
          · exact absurd q c2
        refine ⟨⟨List.pairwise_cons.mpr ⟨h1, h2⟩, fun e he => ?_⟩, fun q => ?_⟩
        · rcases List.mem_cons.mp he with rfl | he
          · exact hx
          · exact h.2 e (List.mem_cons_of_mem _ he)
        · have e : ∀ y : (Str × Str) × List Str, vals (y :: m) q = (if eqK y.1 q then y.2 else []) ++ vals m q := fun _ => rfl
          rw [e, e]
          by_cases hq : eqK k q
          · have hxq := eqK_trans (eqK_symm heq) hq
            have : vals m q = [] := vals_gt fun e he => (ltK_congr_left hxq).mp (h1 e he)
            rw [if_pos hq, if_pos hxq, if_pos hxq, this]; simp
          · have hxq : ¬ eqK x.1 q := fun y => hq (eqK_trans heq y)
            rw [if_neg hq, if_neg hxq, if_neg hxq]; simp

theorem build_ok {es : List Entry} (h : NoNul es) : Sorted (build es) ∧ ∀ s f, vals (build es) (s, f) = valuesOf es s f := by
  have gen : ∀ (es : List Entry) (m : Map), NoNul es → Sorted m →
      Sorted (es.foldl (fun m e => match e with | .field s f v => insert (s, f) v m | _ => m) m) ∧
      ∀ s f, vals (es.foldl (fun m e => match e with | .field s f v => insert (s, f) v m | _ => m) m) (s, f) = vals m (s, f) ++ valuesOf es s f := by
    intro es
    induction es with
    | nil => intro m _ hm; exact ⟨hm, fun s f => by simp [valuesOf]⟩
    | cons e es ih =>
      intro m hn hm
      have hn' : NoNul es := fun s f v hv => hn s f v (List.mem_cons_of_mem _ hv)
      cases e with
      | field a b v =>
        have hk : KOk (a, b) := hn a b v List.mem_cons_self
        obtain ⟨i1, i2⟩ := insert_ok hk (v := v) hm
        obtain ⟨j1, j2⟩ := ih (insert (a, b) v m) hn' i1
        refine ⟨j1, fun s f => ?_⟩
        rw [List.foldl_cons]
        rw [j2, i2, List.append_assoc]
        congr 1
        by_cases hq : low a = low s ∧ low b = low f
        · have : eqK (a, b) (s, f) := hq
          rw [if_pos this]; simp [valuesOf, hq]
        · have : ¬ eqK (a, b) (s, f) := hq
          rw [if_neg this]; simp [valuesOf, hq]
      | incl p =>
        obtain ⟨j1, j2⟩ := ih m hn' hm
        exact ⟨j1, fun s f => by rw [List.foldl_cons]; rw [j2]; simp [valuesOf]⟩
      | other =>
        obtain ⟨j1, j2⟩ := ih m hn' hm
        exact ⟨j1, fun s f => by rw [List.foldl_cons]; rw [j2]; simp [valuesOf]⟩
  obtain ⟨h1, h2⟩ := gen es [] h ⟨List.Pairwise.nil, by simp⟩
  exact ⟨h1, fun s f => h2 s f⟩

theorem get_vals {s f : Str} {i : Nat} (hk : KOk (s, f)) : ∀ {m : Map}, Sorted m → getValue m s f i = (vals m (s, f))[i]?
  | [], _ => rfl
  | x :: m, h => by
    have hx : KOk x.1 := h.2 x List.mem_cons_self
    obtain ⟨h1, h2⟩ := List.pairwise_cons.mp h.1
    have ih := get_vals hk (i := i) (m := m) ⟨h2, fun e he => h.2 e (List.mem_cons_of_mem _ he)⟩
    have e : vals (x :: m) (s, f) = (if eqK x.1 (s, f) then x.2 else []) ++ vals m (s, f) := rfl
    rw [e]
    have hiff : ((!less (s, f) x.1 && !less x.1 (s, f)) = true) ↔ eqK x.1 (s, f) := by
      rw [Bool.and_eq_true, Bool.not_eq_true', Bool.not_eq_true', ← Bool.not_eq_true, ← Bool.not_eq_true, less_iff hk, less_iff hx]
      constructor
      · rintro ⟨a, b⟩
        rcases ltK_total x.1 (s, f) with q | q | q
        · exact absurd q b
        · exact q
        · exact absurd q a
      · intro q
        exact ⟨fun y => not_eqK y (eqK_symm q), fun y => not_eqK y q⟩
    by_cases hq : eqK x.1 (s, f)
    · have : vals m (s, f) = [] := vals_gt fun e he => (ltK_congr_left hq).mp (h1 e he)
      rw [if_pos hq, this, List.append_nil]
      unfold getValue
      rw [List.find?_cons_of_pos (p := fun e : (Str × Str) × List Str => !less (s, f) e.1 && !less e.1 (s, f)) (hiff.mpr hq)]
    · rw [if_neg hq, List.nil_append, ← ih]
      unfold getValue
      rw [List.find?_cons_of_neg (p := fun e : (Str × Str) × List Str => !less (s, f) e.1 && !less e.1 (s, f)) (fun q => hq (hiff.mp q))]

/-- C119: `getValue` gives the values of the field in the order of the file, letters of names do not matter. -/
theorem C119_getValue {es : List Entry} (h : NoNul es) {s f : Str} (hs : 0 ∉ s) (hf : 0 ∉ f) (i : Nat) : getValue (build es) s f i = (valuesOf es s f)[i]? := by
  obtain ⟨h1, h2⟩ := build_ok h
  rw [get_vals ⟨hs, hf⟩ h1, h2]

/-- Concrete case. -/
example : getValue (build [.field [83] [98] [49], .field [115] [97] [50], .field [115] [66] [51], .field [116] [98] [52]]) [115] [98] 1 = some [51] := by decide

/-- With a zero in names different names are the same. -/
theorem C119_nul : getValue (build [.field [115] [0, 97] [49]]) [115] [0, 98] 0 = some [49] := by decide

/-! ## Enumeration -/

theorem cmpL_nil (a : Str) : cmpL a [] ≠ .lt := by cases a <;> simp [cmpL]

theorem take_filter {s : Str} : ∀ {m : Map}, Sorted m → (∀ e, e ∈ m → low e.1.1 = low s → e.1.1 = s) → (∀ e, e ∈ m → cmpL (low e.1.1) (low s) ≠ .lt) →
    m.takeWhile (fun e => e.1.1 = s) = m.filter fun e => e.1.1 = s
  | [], _, _, _ => rfl
  | x :: m, h, hs, hl => by
    obtain ⟨h1, h2⟩ := List.pairwise_cons.mp h.1
    by_cases hx : x.1.1 = s
    · rw [List.takeWhile_cons_of_pos (by simpa using hx), List.filter_cons_of_pos (by simpa using hx),
        take_filter ⟨h2, fun e he => h.2 e (List.mem_cons_of_mem _ he)⟩ (fun e he => hs e (List.mem_cons_of_mem _ he)) (fun e he => hl e (List.mem_cons_of_mem _ he))]
    · rw [List.takeWhile_cons_of_neg (by simpa using hx), eq_comm, List.filter_eq_nil_iff]
      intro e he hq
      have hq : e.1.1 = s := by simpa using hq
      rcases List.mem_cons.mp he with rfl | he
      · exact hx hq
      · have h3 := hl x List.mem_cons_self
        rcases h1 e he with q | ⟨q, _⟩
        · rw [hq] at q; exact h3 q
        · rw [hq] at q
          exact hx (hs x List.mem_cons_self q)

theorem drop_filter {s : Str} : ∀ {m : Map}, Sorted m →
    Sorted (m.dropWhile fun e => less e.1 (s, [])) ∧ (∀ e, e ∈ m.dropWhile (fun e => less e.1 (s, [])) → e ∈ m ∧ cmpL (low e.1.1) (low s) ≠ .lt) ∧
      (m.dropWhile fun e => less e.1 (s, [])).filter (fun e => e.1.1 = s) = m.filter fun e => e.1.1 = s
  | [], h => ⟨h, by simp, rfl⟩
  | x :: m, h => by
    have hx : KOk x.1 := h.2 x List.mem_cons_self
    obtain ⟨h1, h2⟩ := List.pairwise_cons.mp h.1
    by_cases c : ltK x.1 (s, [])
    · rw [List.dropWhile_cons_of_pos (p := fun e : (Str × Str) × List Str => less e.1 (s, [])) ((less_iff hx).mpr c)]
      obtain ⟨i1, i2, i3⟩ := drop_filter (s := s) (m := m) ⟨h2, fun e he => h.2 e (List.mem_cons_of_mem _ he)⟩
      refine ⟨i1, fun e he => ⟨List.mem_cons_of_mem _ (i2 e he).1, (i2 e he).2⟩, ?_⟩
      have : x.1.1 ≠ s := by
        intro q
        rcases c with c | ⟨_, c⟩
        · rw [q, (cmpL_eq _ _).mpr rfl] at c; cases c
        · exact cmpL_nil _ c
      rw [i3, List.filter_cons_of_neg (by simpa using this)]
    · rw [List.dropWhile_cons_of_neg (p := fun e : (Str × Str) × List Str => less e.1 (s, [])) (fun q => c ((less_iff hx).mp q))]
      refine ⟨h, fun e he => ⟨he, fun q => ?_⟩, rfl⟩
      have hlt : ltK e.1 (s, []) := .inl q
      rcases List.mem_cons.mp he with rfl | he
      · exact c hlt
      · exact c (ltK_trans (h1 e he) hlt)

theorem enum_eq {m : Map} (h : Sorted m) {s : Str} (hs : ∀ e, e ∈ m → low e.1.1 = low s → e.1.1 = s) (pre : Str) :
    enumFields m s pre = (m.filter fun e => e.1.1 = s).flatMap fun e => e.2.map fun v => (e.1.2, v) := by
  obtain ⟨h1, h2, h3⟩ := drop_filter (s := s) h
  unfold enumFields
  rw [← h3]
  generalize m.dropWhile (fun e => less e.1 (s, [])) = d at h1 h2
  have h4 := take_filter h1 (fun e he => hs e (h2 e he).1) (fun e he => (h2 e he).2)
  rw [← h4]
  cases d with
  | nil => rfl
  | cons e d =>
    by_cases he : e.1.1 = s
    · simp only [he, if_true]
    · simp only [he, if_false]
      have h6 : ¬ e.1.1 = [] := by
        intro q
        have h5 := (h2 e List.mem_cons_self).2
        rw [q] at h5 he
        cases s with
        | nil => exact he rfl
        | cons a s => exact h5 rfl
      rw [List.takeWhile_cons_of_neg (p := fun e : (Str × Str) × List Str => decide (e.1.1 = s)) (by simpa using he),
        List.takeWhile_cons_of_neg (p := fun e : (Str × Str) × List Str => decide (e.1.1 = [])) (by simpa using h6)]

theorem filter_vals {s f : Str} : ∀ {m : Map}, (∀ e, e ∈ m → low e.1.1 = low s → e.1.1 = s) →
    ((((m.filter fun e => e.1.1 = s).flatMap fun e => e.2.map fun v => (e.1.2, v)).filter fun p : Str × Str => low p.1 = low f).map Prod.snd) = vals m (s, f)
  | [], _ => rfl
  | x :: m, h => by
    have ih := filter_vals (s := s) (f := f) (m := m) fun e he => h e (List.mem_cons_of_mem _ he)
    have e : vals (x :: m) (s, f) = (if eqK x.1 (s, f) then x.2 else []) ++ vals m (s, f) := rfl
    rw [e]
    by_cases hx : x.1.1 = s
    · rw [List.filter_cons_of_pos (by simpa using hx), List.flatMap_cons, List.filter_append, List.map_append, ih]
      congr 1
      by_cases hf : low x.1.2 = low f
      · have : eqK x.1 (s, f) := ⟨by rw [hx], hf⟩
        rw [if_pos this]
        generalize x.2 = vs
        induction vs with
        | nil => rfl
        | cons v vs ih => simpa [hf] using ih
      · have : ¬ eqK x.1 (s, f) := fun q => hf q.2
        rw [if_neg this]
        generalize x.2 = vs
        induction vs with
        | nil => rfl
        | cons v vs ih => simpa [hf] using ih
    · have : ¬ eqK x.1 (s, f) := fun q => hx (h x List.mem_cons_self q.1)
      rw [if_neg this, List.filter_cons_of_neg (by simpa using hx), ih]; rfl

/-- Every key of the map comes from the file. -/
theorem build_mem {es : List Entry} {e : (Str × Str) × List Str} (h : e ∈ build es) : ∃ v, Entry.field e.1.1 e.1.2 v ∈ es := by
  have gen : ∀ (es : List Entry) (m : Map), e ∈ es.foldl (fun m e => match e with | .field s f v => insert (s, f) v m | _ => m) m →
      (∃ v, Entry.field e.1.1 e.1.2 v ∈ es) ∨ ∃ e', e' ∈ m ∧ e'.1 = e.1 := by
    intro es
    induction es with
    | nil => intro m hm; exact .inr ⟨e, hm, rfl⟩
    | cons x es ih =>
      intro m hm
      rw [List.foldl_cons] at hm
      rcases ih _ hm with ⟨v, hv⟩ | ⟨e', h1, h2⟩
      · exact .inl ⟨v, List.mem_cons_of_mem _ hv⟩
      · cases x with
        | field a b v =>
          rcases insert_mem h1 with h3 | ⟨e'', h3, h4⟩
          · refine .inl ⟨v, ?_⟩
            rw [← h2, h3]; exact List.mem_cons_self
          · exact .inr ⟨e'', h3, h4.trans h2⟩
        | incl p => exact .inr ⟨e', h1, h2⟩
        | other => exact .inr ⟨e', h1, h2⟩
  rcases gen es [] h with h | ⟨e', h, _⟩
  · exact h
  · cases h

/-- C120 in full: a list of the fields of a section starting with a prefix, letters of names do not matter, values of every field in the order of the file, fields in ascending order. -/
def Lists (es : List Entry) (s pre : Str) (l : List (Str × Str)) : Prop :=
  (∀ f, ((l.filter fun p : Str × Str => low p.1 = low f).map Prod.snd) = if low pre <+: low f then valuesOf es s f else []) ∧ l.Pairwise fun a b => low a.1 ≤ low b.1

def Claim120 : Prop := ∀ es s pre, NoNul es → 0 ∉ s → 0 ∉ pre → Lists es s pre (enumFields (build es) s pre)

theorem cmpL_le : ∀ a b : Str, cmpL a b ≠ .gt → a ≤ b
  | [], _, _ => List.nil_le _
  | _ :: _, [], h => by simp [cmpL] at h
  | a :: as, b :: bs, h => by
    rw [cmpL] at h
    by_cases h1 : a < b
    · exact List.cons_le_cons_iff.mpr (.inl h1)
    · rw [if_neg h1] at h
      by_cases h2 : b < a
      · rw [if_pos h2] at h; simp at h
      · rw [if_neg h2] at h
        exact List.cons_le_cons_iff.mpr (.inr ⟨by omega, cmpL_le as bs h⟩)

/-- C120 for sections spelled in one way and no prefix. -/
theorem C120_enum_partial {es : List Entry} (h : NoNul es) {s : Str} (hs : ∀ s' f v, Entry.field s' f v ∈ es → low s' = low s → s' = s) : Lists es s [] (enumFields (build es) s []) := by
  obtain ⟨h1, h2⟩ := build_ok h
  have h3 : ∀ e, e ∈ build es → low e.1.1 = low s → e.1.1 = s := fun e he => by
    obtain ⟨v, hv⟩ := build_mem he
    exact hs _ _ v hv
  rw [enum_eq h1 h3]
  refine ⟨fun f => ?_, ?_⟩
  · rw [filter_vals h3, h2, if_pos (show low [] <+: low f from List.nil_prefix)]
  · rw [List.pairwise_flatMap]
    refine ⟨fun e _ => ?_, ?_⟩
    · rw [List.pairwise_map]
      exact List.pairwise_of_forall fun _ _ => cmpL_le _ _ (by rw [(cmpL_eq _ _).mpr rfl]; simp)
    · have hp := h1.1.filter (p := fun e : (Str × Str) × List Str => decide (e.1.1 = s))
      refine (List.Pairwise.and_mem.mp hp).imp ?_
      rintro a b ⟨ha, hb, hab⟩ p hp q hq
      have ha := (List.mem_filter.mp ha).2
      have hb := (List.mem_filter.mp hb).2
      simp only [decide_eq_true_eq] at ha hb
      obtain ⟨v, _, rfl⟩ := List.mem_map.mp hp
      obtain ⟨w, _, rfl⟩ := List.mem_map.mp hq
      rcases hab with hab | ⟨_, hab⟩
      · rw [ha, hb, (cmpL_eq _ _).mpr rfl] at hab; cases hab
      · exact cmpL_le _ _ (by rw [hab]; simp)

/-- Concrete case: fields of the section only, `a` before `B`. -/
example : enumFields (build [.field [115] [66] [49], .field [116] [97] [50], .field [115] [97] [51], .field [115] [98] [52]]) [115] [] = [([97], [51]), ([66], [49]), ([66], [52])] := by decide

/-- The prefix does not matter at all. -/
theorem C120_prefix (m : Map) (s p q : Str) : enumFields m s p = enumFields m s q := rfl

/-- The field `b` is listed for the prefix `a`. -/
theorem C120_violated : ¬ Claim120 := by
  intro h
  have h1 := (h [.field [115] [98] [49]] [115] [97] (by
    intro s f v hv
    simp at hv
    rw [hv.1, hv.2.1]; decide) (by decide) (by decide)).1 [98]
  revert h1
  decide

/-- A section asked in other letters is not listed, though `getValue` finds its field. -/
theorem C120_case_violated : enumFields (build [.field [115] [98] [49]]) [83] [] = [] ∧ getValue (build [.field [115] [98] [49]]) [83] [98] 0 = some [49] := by decide

/-- A section written in two ways is listed in part: up to the first field in the other way. -/
theorem C120_mixed_violated : enumFields (build [.field [115] [97] [49], .field [83] [98] [50], .field [115] [99] [51]]) [115] [] = [([97], [49])] := by decide

end LS.Ini

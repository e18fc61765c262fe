import Verif.Tls

/-! C147: variables of threads. -/

namespace LS.Tls

/-- How often a value is in the table together with a delete function. -/
def owned (t : Tab) (w : Nat) : Nat := t.recs.countP (fun r => r.del && r.ptr == w)

/-- Every value that was registered with a delete function is in the table, or was deleted, once for each registration. -/
def Balanced (t : Tab) : Prop := ∀ w, t.gave.count w = owned t w + t.dels.count w

/-- The destructors are ordered: a value belongs to one variable, and its destructor uses only variables with
smaller indexes. -/
def Ordered (home : Nat → Nat) (beh : Nat → List Act) : Prop :=
  ∀ v, ∀ a ∈ beh v, match a with
    | .set j w => j < home v ∧ home w = j
    | .unset j => j < home v

/-- The values are where they belong. -/
def Homed (home : Nat → Nat) (t : Tab) : Prop :=
  ∀ i r, t.recs[i]? = some r → r.del = true → home r.ptr = i

/-- The actions use only variables below `k`. -/
def Below (home : Nat → Nat) (k : Nat) (l : List Act) : Prop :=
  ∀ a ∈ l, match a with
    | .set j w => j < k ∧ home w = j
    | .unset j => j < k

/-- What a call leaves alone: the places from `k` on and the array. -/
def Same (k : Nat) (t t' : Tab) : Prop :=
  t'.recs.length = t.recs.length ∧ t'.gen = t.gen ∧ t'.cap = t.cap ∧ ∀ j, k ≤ j → t'.recs[j]? = t.recs[j]?

theorem Same.refl (k : Nat) (t : Tab) : Same k t t := ⟨rfl, rfl, rfl, fun _ _ => rfl⟩

theorem Same.trans {k : Nat} {a b c : Tab} (h1 : Same k a b) (h2 : Same k b c) : Same k a c :=
  ⟨h2.1.trans h1.1, h2.2.1.trans h1.2.1, h2.2.2.1.trans h1.2.2.1, fun j hj => (h2.2.2.2 j hj).trans (h1.2.2.2 j hj)⟩

theorem Same.mono {k m : Nat} {a b : Tab} (h : Same k a b) (hk : k ≤ m) : Same m a b :=
  ⟨h.1, h.2.1, h.2.2.1, fun j hj => h.2.2.2 j (by omega)⟩

/-- The two good properties together. -/
def Fine (home : Nat → Nat) (t : Tab) : Prop := Homed home t ∧ Balanced t

/-- Writing a record over an empty one. -/
theorem owned_set (t : Tab) (i : Nat) (r0 r : Rec) (h : t.recs[i]? = some r0) (w : Nat) :
    (t.recs.set i r).countP (fun r => r.del && r.ptr == w) + (if r0.del && r0.ptr == w then 1 else 0) =
      owned t w + (if r.del && r.ptr == w then 1 else 0) := by
  obtain ⟨hi, he⟩ := List.getElem?_eq_some_iff.1 h
  have hc := List.countP_set (p := fun r : Rec => r.del && r.ptr == w) (l := t.recs) (i := i) (a := r) hi
  rw [hc, he]
  unfold owned
  by_cases h0 : (r0.del && r0.ptr == w) = true
  · have : 0 < t.recs.countP (fun r => r.del && r.ptr == w) :=
      List.countP_pos_iff.2 ⟨r0, List.mem_of_getElem? h, h0⟩
    simp only [h0, if_true]
    omega
  · simp only [h0]
    simp

theorem set_get (l : List Rec) (i j : Nat) (r : Rec) (h : i < l.length) :
    (l.set i r)[j]? = if j = i then some r else l[j]? := by
  by_cases e : j = i
  · subst e; simp [h]
  · rw [if_neg e, List.getElem?_set_ne (fun h => e h.symm)]

/-- Emptying a record, with the note that its value is deleted. -/
theorem emptied (home : Nat → Nat) (t : Tab) (hf : Fine home t) (i : Nat) (r : Rec) (h : t.recs[i]? = some r) :
    Fine home { t with recs := t.recs.set i Rec.none, dels := if r.del then t.dels ++ [r.ptr] else t.dels } := by
  have hi := (List.getElem?_eq_some_iff.1 h).1
  refine ⟨?_, ?_⟩
  · intro j r' hj hd
    have hj : (t.recs.set i Rec.none)[j]? = some r' := hj
    rw [set_get _ _ _ _ hi] at hj
    by_cases e : j = i
    · rw [if_pos e] at hj
      rw [← Option.some.inj hj] at hd
      cases hd
    · rw [if_neg e] at hj
      exact hf.1 j r' hj hd
  · intro w
    have h1 := hf.2 w
    have h2 := owned_set t i r Rec.none h w
    show t.gave.count w = (t.recs.set i Rec.none).countP _ + _
    have h3 : (Rec.none.del && Rec.none.ptr == w) = false := rfl
    rw [h3] at h2
    simp only [Bool.false_eq_true, if_false, Nat.add_zero] at h2
    cases hd : r.del with
    | false => simp [hd] at h2 ⊢; omega
    | true =>
      simp only [hd, Bool.true_and, if_true] at h2 ⊢
      rw [List.count_append, List.count_singleton]
      by_cases e : r.ptr = w <;> simp [e] at h2 ⊢ <;> omega

/-- Writing a record over an empty one. -/
theorem written (home : Nat → Nat) (t : Tab) (hf : Fine home t) (i v : Nat) (d : Bool) (h : t.recs[i]? = some Rec.none)
    (hh : d = true → home v = i) :
    Fine home { t with recs := t.recs.set i ⟨v, d⟩, gave := if d then t.gave ++ [v] else t.gave } := by
  have hi := (List.getElem?_eq_some_iff.1 h).1
  refine ⟨?_, ?_⟩
  · intro j r' hj hd
    have hj : (t.recs.set i ⟨v, d⟩)[j]? = some r' := hj
    rw [set_get _ _ _ _ hi] at hj
    by_cases e : j = i
    · rw [if_pos e] at hj
      rw [← Option.some.inj hj] at hd ⊢
      rw [e]; exact hh hd
    · rw [if_neg e] at hj
      exact hf.1 j r' hj hd
  · intro w
    have h1 := hf.2 w
    have h2 := owned_set t i Rec.none ⟨v, d⟩ h w
    have h3 : (Rec.none.del && Rec.none.ptr == w) = false := rfl
    rw [h3] at h2
    simp only [Bool.false_eq_true, if_false, Nat.add_zero] at h2
    show (if d then t.gave ++ [v] else t.gave).count w = (t.recs.set i ⟨v, d⟩).countP _ + _
    cases d with
    | false => simp at h2 ⊢; omega
    | true =>
      simp only [Bool.true_and, if_true] at h2 ⊢
      rw [List.count_append, List.count_singleton, h2]
      by_cases e : v = w <;> simp [e] <;> omega

/-- A result that is not the end of the fuel is a success with a property. -/
def Good (P : Tab → Prop) (r : Res) : Prop := r = .fuel ∨ ∃ t, r = .ok t ∧ P t

theorem Good.bind {P Q : Tab → Prop} {r : Res} {f : Tab → Res} (h : Good P r) (hf : ∀ t, P t → Good Q (f t)) :
    Good Q (r.bind f) := by
  rcases h with rfl | ⟨t, rfl, hp⟩
  · exact Or.inl rfl
  · exact hf t hp

theorem exec_fine (home : Nat → Nat) (beh : Nat → List Act) (ho : Ordered home beh) : ∀ f,
    (∀ i t, Fine home t → Good (fun t' => Fine home t' ∧ Same (i + 1) t t' ∧ (i < t.recs.length → t'.recs[i]? = some Rec.none))
      (exec beh f (.unset i) t)) ∧
    (∀ i v d t, Fine home t → i < t.recs.length → (d = true → home v = i) →
      Good (fun t' => Fine home t' ∧ Same (i + 1) t t' ∧ t'.recs[i]? = some ⟨v, d⟩) (exec beh f (.setVar i v d) t)) ∧
    (∀ k l t, Fine home t → k ≤ t.recs.length → Below home k l →
      Good (fun t' => Fine home t' ∧ Same k t t') (exec beh f (.acts l) t)) := by
  intro f
  induction f with
  | zero => exact ⟨fun _ _ _ => Or.inl rfl, fun _ _ _ _ _ _ _ => Or.inl rfl, fun _ _ _ _ _ _ => Or.inl rfl⟩
  | succ f ih =>
    obtain ⟨ih1, ih2, ih3⟩ := ih
    refine ⟨?_, ?_, ?_⟩
    · intro i t hf
      rw [exec]
      cases hr : t.recs[i]? with
      | none =>
        refine Or.inr ⟨t, rfl, hf, Same.refl _ _, ?_⟩
        intro hi
        rw [List.getElem?_eq_none_iff] at hr
        omega
      | some r =>
        have hi := (List.getElem?_eq_some_iff.1 hr).1
        have e := emptied home t hf i r hr
        have sm : ∀ ds, Same (i + 1) t { t with recs := t.recs.set i Rec.none, dels := ds } := by
          intro ds
          refine ⟨by simp, rfl, rfl, ?_⟩
          intro j hj
          show (t.recs.set i Rec.none)[j]? = _
          rw [set_get _ _ _ _ hi, if_neg (by omega)]
        have none_at : ∀ ds, ({ t with recs := t.recs.set i Rec.none, dels := ds } : Tab).recs[i]? = some Rec.none := by
          intro ds
          show (t.recs.set i Rec.none)[i]? = _
          rw [set_get _ _ _ _ hi, if_pos rfl]
        cases hd : r.del with
        | false =>
          simp only [hd, Bool.false_eq_true, if_false] at e ⊢
          exact Or.inr ⟨_, rfl, e, sm _, fun _ => none_at _⟩
        | true =>
          simp only [hd, if_true] at e ⊢
          have hb : Below home i (beh r.ptr) := by
            have := ho r.ptr
            rw [hf.1 i r hr hd] at this
            exact this
          rcases ih3 i (beh r.ptr) _ e (by simp; omega) hb with h | ⟨t', h1, h2, h3⟩
          · exact Or.inl h
          · refine Or.inr ⟨t', h1, h2, (sm _).trans (h3.mono (by omega)), ?_⟩
            intro _
            rw [h3.2.2.2 i (Nat.le_refl _)]
            exact none_at _
    · intro i v d t hf hi hh
      have hg : grow t i = some t := by simp [grow, hi]
      have hn : (v == 0 && !d && decide (t.recs.length ≤ i)) = false := by
        have : decide (t.recs.length ≤ i) = false := decide_eq_false (by omega)
        rw [this, Bool.and_false]
      rw [exec]
      simp only [hn, Bool.false_eq_true, if_false, hg]
      rcases ih1 i t hf with h | ⟨t2, h1, h2, h3, h4⟩
      · rw [h]; exact Or.inl rfl
      · rw [h1]
        have h4 := h4 hi
        have h5 := h3.2.1
        show Good _ (if t2.gen = t.gen then _ else _)
        rw [if_pos h5]
        refine Or.inr ⟨_, rfl, written home t2 h2 i v d h4 hh, ?_, ?_⟩
        · refine ⟨by simp [h3.1], h3.2.1, h3.2.2.1, ?_⟩
          intro j hj
          show (t2.recs.set i ⟨v, d⟩)[j]? = _
          rw [set_get _ _ _ _ (by rw [h3.1]; exact hi), if_neg (by omega)]
          exact h3.2.2.2 j hj
        · show (t2.recs.set i ⟨v, d⟩)[i]? = _
          rw [set_get _ _ _ _ (by rw [h3.1]; exact hi), if_pos rfl]
    · intro k l t hf hk hb
      cases l with
      | nil => rw [exec]; exact Or.inr ⟨t, rfl, hf, Same.refl _ _⟩
      | cons a l =>
        have hb2 : Below home k l := fun x hx => hb x (List.mem_cons_of_mem _ hx)
        have ha := hb a (by simp)
        cases a with
        | set i v =>
          have ha : i < k ∧ home v = i := ha
          rw [exec]
          refine Good.bind (P := fun t' => Fine home t' ∧ Same k t t') ?_ ?_
          · refine Good.bind (ih1 i t hf) ?_
            rintro t1 ⟨b1, b2, b3⟩
            rcases ih2 i v true t1 b1 (by rw [b2.1]; omega) (fun _ => ha.2) with h | ⟨t', h1, h2, h3, h4⟩
            · exact Or.inl h
            · exact Or.inr ⟨t', h1, h2, (b2.mono (by omega)).trans (h3.mono (by omega))⟩
          · rintro t1 ⟨b1, b2⟩
            rcases ih3 k l t1 b1 (by rw [b2.1]; exact hk) hb2 with h | ⟨t', h1, h2, h3⟩
            · exact Or.inl h
            · exact Or.inr ⟨t', h1, h2, b2.trans h3⟩
        | unset i =>
          have ha : i < k := ha
          rw [exec]
          refine Good.bind (P := fun t' => Fine home t' ∧ Same k t t') ?_ ?_
          · rcases ih1 i t hf with h | ⟨t', h1, h2, h3, h4⟩
            · exact Or.inl h
            · exact Or.inr ⟨t', h1, h2, h3.mono (by omega)⟩
          · rintro t1 ⟨b1, b2⟩
            rcases ih3 k l t1 b1 (by rw [b2.1]; exact hk) hb2 with h | ⟨t', h1, h2, h3⟩
            · exact Or.inl h
            · exact Or.inr ⟨t', h1, h2, b2.trans h3⟩

/-! ### The calls end -/

theorem bind_more {r r' : Res} {f g : Tab → Res} (h1 : r ≠ .fuel → r' = r) (h2 : ∀ t, f t ≠ .fuel → g t = f t)
    (h : r.bind f ≠ .fuel) : r'.bind g = r.bind f := by
  have hr : r ≠ .fuel := by rintro rfl; exact h rfl
  rw [h1 hr]
  cases r with
  | ok t => exact h2 t h
  | exn t => rfl
  | ub => rfl
  | fuel => exact absurd rfl hr

/-- More fuel changes nothing. -/
theorem exec_more (beh : Nat → List Act) : ∀ f c t, exec beh f c t ≠ .fuel → exec beh (f + 1) c t = exec beh f c t := by
  intro f
  induction f with
  | zero => intro c t h; exact absurd (by cases c <;> rfl) h
  | succ f ih =>
    intro c t h
    cases c with
    | unset i =>
      rw [exec] at h ⊢
      rw [exec]
      cases hr : t.recs[i]? with
      | none => rfl
      | some r =>
        rw [hr] at h
        cases hd : r.del with
        | false => simp [hd]
        | true =>
          simp only [hd, if_true] at h ⊢
          exact ih _ _ h
    | setVar i v d =>
      rw [exec] at h ⊢
      rw [exec]
      split
      · rfl
      · rename_i hn
        rw [if_neg hn] at h
        cases hg : grow t i with
        | none => rfl
        | some t1 =>
          rw [hg] at h
          simp only at h ⊢
          have : exec beh f (.unset i) t1 ≠ .fuel := by
            intro e; rw [e] at h; exact h rfl
          rw [ih _ _ this]
    | acts l =>
      cases l with
      | nil => rfl
      | cons a l =>
        cases a with
        | set i v =>
          rw [exec] at h ⊢
          rw [exec]
          exact bind_more (fun h1 => bind_more (ih _ _) (ih _) h1) (ih _) h
        | unset i =>
          rw [exec] at h ⊢
          rw [exec]
          exact bind_more (ih _ _) (ih _) h

theorem exec_le (beh : Nat → List Act) (f n : Nat) (c : Cmd) (t : Tab) (h : exec beh f c t ≠ .fuel) (hn : f ≤ n) :
    exec beh n c t = exec beh f c t := by
  obtain ⟨m, rfl⟩ : ∃ m, n = f + m := ⟨n - f, by omega⟩
  clear hn
  induction m with
  | zero => rfl
  | succ m ih =>
    rw [← Nat.add_assoc, exec_more _ _ _ _ (by rw [ih]; exact h), ih]

/-- The actions end when `unset` ends below. -/
theorem acts_end (home : Nat → Nat) (beh : Nat → List Act) (ho : Ordered home beh) (k : Nat)
    (hu : ∀ i, i < k → ∀ t, Fine home t → i < t.recs.length → ∃ f, exec beh f (.unset i) t ≠ .fuel) :
    ∀ l t, Fine home t → k ≤ t.recs.length → Below home k l → ∃ f, exec beh f (.acts l) t ≠ .fuel := by
  have hs : ∀ i v t, i < k → home v = i → Fine home t → i < t.recs.length → ∃ f, exec beh f (.setVar i v true) t ≠ .fuel := by
    intro i v t hi hv hf hlt
    obtain ⟨f, h⟩ := hu i hi t hf hlt
    refine ⟨f + 1, ?_⟩
    have hg : grow t i = some t := by simp [grow, hlt]
    rw [exec]
    simp only [Bool.not_true, Bool.and_false, Bool.false_and, Bool.false_eq_true, if_false, hg]
    rcases (exec_fine home beh ho f).1 i t hf with e | ⟨t2, h1, h2, h3, h4⟩
    · exact absurd e h
    · rw [h1]; simp [h3.2.1]
  intro l
  induction l with
  | nil => intro t _ _ _; exact ⟨1, by simp [exec]⟩
  | cons a l ih =>
    intro t hf hk hb
    have hb2 : Below home k l := fun x hx => hb x (List.mem_cons_of_mem _ hx)
    have ha := hb a (by simp)
    cases a with
    | set i v =>
      have ha : i < k ∧ home v = i := ha
      obtain ⟨f1, h1⟩ := hu i ha.1 t hf (by omega)
      rcases (exec_fine home beh ho f1).1 i t hf with e | ⟨t1, e1, e2, e3, e4⟩
      · exact absurd e h1
      · have hl1 : t1.recs.length = t.recs.length := e3.1
        obtain ⟨f2, h2⟩ := hs i v t1 ha.1 ha.2 e2 (by omega)
        rcases (exec_fine home beh ho f2).2.1 i v true t1 e2 (by omega) (fun _ => ha.2) with g | ⟨t2, g1, g2, g3, g4⟩
        · exact absurd g h2
        · have hl2 : t2.recs.length = t1.recs.length := g3.1
          obtain ⟨f3, h3⟩ := ih t2 g2 (by omega) hb2
          refine ⟨max f1 (max f2 f3) + 1, ?_⟩
          rw [exec, exec_le beh f1 _ _ _ h1 (by omega), e1]
          show ((exec beh (max f1 (max f2 f3)) (.setVar i v true) t1).bind _) ≠ _
          rw [exec_le beh f2 _ _ _ h2 (by omega), g1]
          show exec beh (max f1 (max f2 f3)) (.acts l) t2 ≠ _
          rw [exec_le beh f3 _ _ _ h3 (by omega)]
          exact h3
    | unset i =>
      have ha : i < k := ha
      obtain ⟨f1, h1⟩ := hu i ha t hf (by omega)
      rcases (exec_fine home beh ho f1).1 i t hf with e | ⟨t1, e1, e2, e3, e4⟩
      · exact absurd e h1
      · have hl1 : t1.recs.length = t.recs.length := e3.1
        obtain ⟨f3, h3⟩ := ih t1 e2 (by omega) hb2
        refine ⟨max f1 f3 + 1, ?_⟩
        rw [exec, exec_le beh f1 _ _ _ h1 (by omega), e1]
        show exec beh (max f1 f3) (.acts l) t1 ≠ _
        rw [exec_le beh f3 _ _ _ h3 (by omega)]
        exact h3

theorem unset_ends (home : Nat → Nat) (beh : Nat → List Act) (ho : Ordered home beh) : ∀ n i, i < n → ∀ t, Fine home t →
    ∃ f, exec beh f (.unset i) t ≠ .fuel := by
  intro n
  induction n with
  | zero => intro i h; omega
  | succ n ih =>
    intro i hi t hf
    cases hr : t.recs[i]? with
    | none => exact ⟨1, by simp [exec, hr]⟩
    | some r =>
      have hlt := (List.getElem?_eq_some_iff.1 hr).1
      cases hd : r.del with
      | false => exact ⟨1, by simp [exec, hr, hd]⟩
      | true =>
        have hb : Below home i (beh r.ptr) := by
          have := ho r.ptr
          rw [hf.1 i r hr hd] at this
          exact this
        have e := emptied home t hf i r hr
        simp only [hd, if_true] at e
        obtain ⟨f, h⟩ := acts_end home beh ho i (fun j hj t hf _ => ih j (by omega) t hf) (beh r.ptr) _ e (by simp; omega) hb
        refine ⟨f + 1, ?_⟩
        rw [exec, hr]
        simp only [hd, if_true]
        exact h

/-! ### The calls -/

theorem grow_fine (home : Nat → Nat) (t t1 : Tab) (i : Nat) (hf : Fine home t) (h : grow t i = some t1) :
    Fine home t1 ∧ i < t1.recs.length ∧ t1.gave = t.gave ∧ t1.dels = t.dels ∧ (∀ j, getVar t1 j = getVar t j) ∧
      grow t1 i = some t1 := by
  unfold grow at h
  by_cases hi : i < t.recs.length
  · rw [if_pos hi] at h
    have := Option.some.inj h
    subst this
    exact ⟨hf, hi, rfl, rfl, fun _ => rfl, by simp [grow, hi]⟩
  · rw [if_neg hi] at h
    obtain ⟨g, e⟩ : ∃ g, t1 = { t with recs := t.recs ++ List.replicate (i + 1 - t.recs.length) Rec.none, gen := g } := by
      cases hc : t.cap with
      | none => rw [hc] at h; exact ⟨t.gen + 1, (Option.some.inj h).symm⟩
      | some c =>
        rw [hc] at h
        by_cases hcc : i + 1 ≤ c
        · simp only [hcc, if_true] at h; exact ⟨t.gen, (Option.some.inj h).symm⟩
        · simp only [hcc, if_false] at h; cases h
    subst e
    have hl : i < (t.recs ++ List.replicate (i + 1 - t.recs.length) Rec.none).length := by simp; omega
    have look : ∀ j r, (t.recs ++ List.replicate (i + 1 - t.recs.length) Rec.none)[j]? = some r →
        t.recs[j]? = some r ∨ (t.recs.length ≤ j ∧ r = Rec.none) := by
      intro j r hj
      by_cases hjl : j < t.recs.length
      · rw [List.getElem?_append_left hjl] at hj; exact Or.inl hj
      · rw [List.getElem?_append_right (by omega)] at hj
        exact Or.inr ⟨by omega, List.eq_of_mem_replicate (List.mem_of_getElem? hj)⟩
    refine ⟨⟨?_, ?_⟩, hl, rfl, rfl, ?_, ?_⟩
    · intro j r hj hd
      rcases look j r hj with h1 | ⟨_, h1⟩
      · exact hf.1 j r h1 hd
      · rw [h1] at hd; cases hd
    · intro w
      have := hf.2 w
      show t.gave.count w = (t.recs ++ List.replicate (i + 1 - t.recs.length) Rec.none).countP _ + t.dels.count w
      rw [List.countP_append]
      have h0 : (List.replicate (i + 1 - t.recs.length) Rec.none).countP (fun r => r.del && r.ptr == w) = 0 := by
        rw [List.countP_eq_zero]
        intro r hr
        rw [List.eq_of_mem_replicate hr]
        simp [Rec.none]
      rw [h0, Nat.add_zero]
      exact this
    · intro j
      show (match (t.recs ++ List.replicate (i + 1 - t.recs.length) Rec.none)[j]? with | some r => r.ptr | none => 0) = _
      cases hj : (t.recs ++ List.replicate (i + 1 - t.recs.length) Rec.none)[j]? with
      | none =>
        rw [List.getElem?_eq_none_iff] at hj
        have : t.recs[j]? = none := List.getElem?_eq_none_iff.2 (by simp at hj; omega)
        simp [getVar, this]
      | some r =>
        rcases look j r hj with h1 | ⟨h2, h1⟩
        · simp [getVar, h1]
        · have : t.recs[j]? = none := List.getElem?_eq_none_iff.2 h2
          simp [getVar, this, h1, Rec.none]
    · unfold grow
      rw [if_pos hl]

/-- The room for an index. -/
def Room (t : Tab) (i : Nat) : Prop := ∀ c, t.cap = some c → i < c

theorem grow_room (t : Tab) (i : Nat) (h : Room t i) : ∃ t1, grow t i = some t1 := by
  unfold grow
  by_cases hi : i < t.recs.length
  · exact ⟨t, if_pos hi⟩
  · rw [if_neg hi]
    cases hc : t.cap with
    | none => exact ⟨_, rfl⟩
    | some c =>
      have := h c hc
      exact ⟨_, if_pos (by omega)⟩

theorem setVar_grow (beh : Nat → List Act) (f i v : Nat) (d : Bool) (t t1 : Tab) (hg : grow t i = some t1)
    (h1 : grow t1 i = some t1) (hl : i < t1.recs.length) (hn : (v == 0 && !d && decide (t.recs.length ≤ i)) = false) :
    exec beh f (.setVar i v d) t = exec beh f (.setVar i v d) t1 := by
  cases f with
  | zero => rfl
  | succ f =>
    have hn1 : (v == 0 && !d && decide (t1.recs.length ≤ i)) = false := by
      have : decide (t1.recs.length ≤ i) = false := decide_eq_false (by omega)
      rw [this, Bool.and_false]
    rw [exec, exec]
    simp only [hn, hn1, Bool.false_eq_true, if_false, hg, h1]

theorem getVar_of {t : Tab} {i : Nat} {r : Rec} (h : t.recs[i]? = some r) : getVar t i = r.ptr := by simp [getVar, h]

theorem same_getVar {k j : Nat} {t t' : Tab} (h : Same k t t') (hj : k ≤ j) : getVar t' j = getVar t j := by
  simp [getVar, h.2.2.2 j hj]

theorem setVar_ends (home : Nat → Nat) (beh : Nat → List Act) (ho : Ordered home beh) (i v : Nat) (d : Bool) (t : Tab)
    (hf : Fine home t) (hh : d = true → home v = i) (hr : Room t i) :
    ∃ f t', exec beh f (.setVar i v d) t = .ok t' ∧ Fine home t' ∧ getVar t' i = v ∧
      ∀ j, i < j → getVar t' j = getVar t j := by
  by_cases hn : (v == 0 && !d && decide (t.recs.length ≤ i)) = true
  · refine ⟨1, t, by rw [exec, if_pos hn], hf, ?_, fun _ _ => rfl⟩
    simp only [Bool.and_eq_true, beq_iff_eq, decide_eq_true_eq] at hn
    rw [getVar, List.getElem?_eq_none_iff.2 hn.2, hn.1.1]
  · have hn : (v == 0 && !d && decide (t.recs.length ≤ i)) = false := by simpa using hn
    obtain ⟨t1, hg⟩ := grow_room t i hr
    obtain ⟨a1, a2, a3, a4, a5, a6⟩ := grow_fine home t t1 i hf hg
    obtain ⟨f, hu⟩ := unset_ends home beh ho (i + 1) i (by omega) t1 a1
    have he := setVar_grow beh (f + 1) i v d t t1 hg a6 a2 hn
    rcases (exec_fine home beh ho (f + 1)).2.1 i v d t1 a1 a2 hh with e | ⟨t', e1, e2, e3, e4⟩
    · exfalso
      have hn1 : (v == 0 && !d && decide (t1.recs.length ≤ i)) = false := by
        have : decide (t1.recs.length ≤ i) = false := decide_eq_false (by omega)
        rw [this, Bool.and_false]
      rcases (exec_fine home beh ho f).1 i t1 a1 with g | ⟨t2, g1, g2, g3, g4⟩
      · exact hu g
      · rw [exec] at e
        simp only [hn1, Bool.false_eq_true, if_false, a6, g1] at e
        rw [if_pos g3.2.1] at e
        cases e
    · refine ⟨f + 1, t', by rw [he]; exact e1, e2, getVar_of e4, ?_⟩
      intro j hj
      rw [same_getVar e3 (by omega), a5]

/-- C147: setting and removing. With ordered destructors and room for the index a call ends, the variable has the
new value, the variables above keep theirs, and every value is deleted once for each registration or is still there.
Missing: the variables below (the destructor of the old value may change them; see `C147_plain`). -/
theorem C147_set_partial (home : Nat → Nat) (beh : Nat → List Act) (ho : Ordered home beh) (i v : Nat) (d : Bool) (t : Tab)
    (hm : Homed home t) (hb : Balanced t) (hh : d = true → home v = i) (hr : Room t i) :
    (∃ f t', (∀ n, f ≤ n → tvSet beh n i v d t = .ok t') ∧ Homed home t' ∧ Balanced t' ∧ getVar t' i = v ∧
      ∀ j, i < j → getVar t' j = getVar t j) ∧
    (∃ f t', (∀ n, f ≤ n → exec beh n (.unset i) t = .ok t') ∧ Homed home t' ∧ Balanced t' ∧ getVar t' i = 0 ∧
      ∀ j, i < j → getVar t' j = getVar t j) := by
  obtain ⟨f1, hu⟩ := unset_ends home beh ho (i + 1) i (by omega) t ⟨hm, hb⟩
  rcases (exec_fine home beh ho f1).1 i t ⟨hm, hb⟩ with e | ⟨t1, e1, e2, e3, e4⟩
  · exact absurd e hu
  have g0 : getVar t1 i = 0 := by
    by_cases hi : i < t.recs.length
    · rw [getVar_of (e4 hi)]; rfl
    · have hl := e3.1
      have : t1.recs[i]? = none := List.getElem?_eq_none_iff.2 (by omega)
      simp [getVar, this]
  refine ⟨?_, f1, t1, ?_, e2.1, e2.2, g0, fun j hj => same_getVar e3 (by omega)⟩
  · have hr1 : Room t1 i := by
      intro c hc
      exact hr c (by rw [← e3.2.2.1]; exact hc)
    obtain ⟨f2, t2, s1, s2, s3, s4⟩ := setVar_ends home beh ho i v d t1 e2 hh hr1
    refine ⟨max f1 f2, t2, ?_, s2.1, s2.2, s3, ?_⟩
    · intro n hn
      unfold tvSet
      rw [exec_le beh f1 n _ _ hu (by omega), e1]
      show exec beh n (.setVar i v d) t1 = _
      rw [exec_le beh f2 n _ _ (by rw [s1]; simp) (by omega), s1]
    · intro j hj
      rw [s4 j hj, same_getVar e3 (by omega)]
  · intro n hn
    rw [exec_le beh f1 n _ _ hu hn, e1]

/-- C147: destructors that use no thread variables. The table is a map from variables to values, and a call deletes
exactly the old value of its variable, if that was given with a delete function. -/
theorem C147_plain (i v : Nat) (d : Bool) (t : Tab) (n : Nat) (hr : Room t i) :
    (∃ t', tvSet (fun _ => []) (n + 3) i v d t = .ok t' ∧ (∀ j, getVar t' j = if j = i then v else getVar t j) ∧
      t'.dels = t.dels ++ (match t.recs[i]? with | some r => if r.del then [r.ptr] else [] | none => [])) ∧
    (∃ t', exec (fun _ => []) (n + 2) (.unset i) t = .ok t' ∧ (∀ j, getVar t' j = if j = i then 0 else getVar t j) ∧
      t'.dels = t.dels ++ (match t.recs[i]? with | some r => if r.del then [r.ptr] else [] | none => [])) := by
  have un : ∀ m t, ∃ t', exec (fun _ => []) (m + 2) (.unset i) t = .ok t' ∧ (∀ j, getVar t' j = if j = i then 0 else getVar t j) ∧
      t'.dels = t.dels ++ (match t.recs[i]? with | some r => if r.del then [r.ptr] else [] | none => []) ∧
      t'.gen = t.gen ∧ t'.cap = t.cap ∧ t'.recs.length = t.recs.length ∧ (i < t.recs.length → t'.recs[i]? = some Rec.none) := by
    intro m t
    rw [exec]
    cases hi : t.recs[i]? with
    | none =>
      refine ⟨t, rfl, ?_, by simp, rfl, rfl, rfl, ?_⟩
      · intro j
        by_cases e : j = i
        · rw [if_pos e, e]; simp [getVar, hi]
        · rw [if_neg e]
      · intro hl
        rw [List.getElem?_eq_none_iff] at hi
        omega
    | some r =>
      have hl := (List.getElem?_eq_some_iff.1 hi).1
      have gv : ∀ ds j, getVar { t with recs := t.recs.set i Rec.none, dels := ds } j = if j = i then 0 else getVar t j := by
        intro ds j
        show (match (t.recs.set i Rec.none)[j]? with | some r => r.ptr | none => 0) = _
        rw [set_get _ _ _ _ hl]
        by_cases e : j = i
        · rw [if_pos e, if_pos e]; rfl
        · rw [if_neg e, if_neg e]; rfl
      cases hd : r.del with
      | false =>
        simp only [hd, Bool.false_eq_true, if_false]
        exact ⟨_, rfl, gv _, by simp, rfl, rfl, by simp, fun _ => by simp [hl]⟩
      | true =>
        simp only [hd, if_true, exec]
        exact ⟨_, rfl, gv _, by simp, rfl, rfl, by simp, fun _ => by simp [hl]⟩
  refine ⟨?_, ?_⟩
  · obtain ⟨t1, a1, a2, a3, a4, a5, a6, a7⟩ := un (n + 1) t
    unfold tvSet
    rw [a1]
    show ∃ t', exec (fun _ => []) (n + 3) (.setVar i v d) t1 = .ok t' ∧ _
    by_cases hn : (v == 0 && !d && decide (t1.recs.length ≤ i)) = true
    · refine ⟨t1, by rw [exec, if_pos hn], ?_, a3⟩
      simp only [Bool.and_eq_true, beq_iff_eq, decide_eq_true_eq] at hn
      rw [hn.1.1]
      exact a2
    · obtain ⟨t2, hg⟩ := grow_room t1 i (by intro c hc; exact hr c (by rw [← a5]; exact hc))
      obtain ⟨t3, b1, b2, b3, b4, b5, b6, b7⟩ := un n t2
      have nodel : match t2.recs[i]? with | some r => r.del = false | none => False := by
        unfold grow at hg
        by_cases hi : i < t1.recs.length
        · rw [if_pos hi] at hg
          rw [← Option.some.inj hg, a7 (by omega)]
          rfl
        · rw [if_neg hi] at hg
          have e : t2.recs = t1.recs ++ List.replicate (i + 1 - t1.recs.length) Rec.none := by
            cases hc : t1.cap with
            | none => rw [hc] at hg; rw [← Option.some.inj hg]
            | some c =>
              rw [hc] at hg
              by_cases hcc : i + 1 ≤ c
              · simp only [hcc, if_true] at hg; rw [← Option.some.inj hg]
              · simp only [hcc, if_false] at hg; cases hg
          rw [e, List.getElem?_append_right (by omega), List.getElem?_replicate]
          rw [if_pos (by omega)]
          rfl
      have gr : t2.dels = t1.dels ∧ (∀ j, getVar t2 j = getVar t1 j) ∧ i < t2.recs.length := by
        have hx : ∀ j, getVar t2 j = getVar t1 j := by
          intro j
          unfold grow at hg
          by_cases hi : i < t1.recs.length
          · rw [if_pos hi] at hg
            rw [← Option.some.inj hg]
          · rw [if_neg hi] at hg
            have e : t2.recs = t1.recs ++ List.replicate (i + 1 - t1.recs.length) Rec.none := by
              cases hc : t1.cap with
              | none => rw [hc] at hg; rw [← Option.some.inj hg]
              | some c =>
                rw [hc] at hg
                by_cases hcc : i + 1 ≤ c
                · simp only [hcc, if_true] at hg; rw [← Option.some.inj hg]
                · simp only [hcc, if_false] at hg; cases hg
            unfold getVar
            rw [e]
            by_cases hj : j < t1.recs.length
            · rw [List.getElem?_append_left hj]
            · rw [List.getElem?_append_right (by omega), List.getElem?_replicate, List.getElem?_eq_none_iff.2 (by omega : t1.recs.length ≤ j)]
              by_cases h4 : j - t1.recs.length < i + 1 - t1.recs.length
              · rw [if_pos h4]; rfl
              · rw [if_neg h4]
        refine ⟨?_, hx, ?_⟩
        · unfold grow at hg
          split at hg
          · rw [← Option.some.inj hg]
          · dsimp only at hg
            split at hg
            · split at hg
              · rw [← Option.some.inj hg]
              · cases hg
            · rw [← Option.some.inj hg]
        · cases h2 : t2.recs[i]? with
          | none => rw [h2] at nodel; exact nodel.elim
          | some r => exact (List.getElem?_eq_some_iff.1 h2).1
      rw [exec, if_neg hn, hg]
      simp only [b1, b4, if_true]
      refine ⟨_, rfl, ?_, ?_⟩
      · intro j
        show (match (t3.recs.set i ⟨v, d⟩)[j]? with | some r => r.ptr | none => 0) = _
        rw [set_get _ _ _ _ (by rw [b6]; exact gr.2.2)]
        by_cases e : j = i
        · rw [if_pos e, if_pos e]
        · rw [if_neg e, if_neg e]
          have h1 := b2 j
          have h2 := a2 j
          rw [if_neg e] at h1 h2
          rw [← h2, ← gr.2.1 j, ← h1]
          rfl
      · show t3.dels = _
        rw [b3, gr.1, a3]
        cases h2 : t2.recs[i]? with
        | none => rw [h2] at nodel; exact nodel.elim
        | some r =>
          rw [h2] at nodel
          have nodel : r.del = false := nodel
          simp [nodel]
  · obtain ⟨t1, a1, a2, a3, _⟩ := un n t
    exact ⟨t1, a1, a2, a3⟩

example : tvSet (fun _ => []) 3 1 7 true (start none) = .ok ⟨[⟨0, false⟩, ⟨7, true⟩], none, 1, [7], []⟩ ∧
    tvSet (fun _ => []) 3 1 8 true ⟨[⟨0, false⟩, ⟨7, true⟩], none, 1, [7], []⟩ =
      .ok ⟨[⟨0, false⟩, ⟨8, true⟩], none, 1, [7, 8], [7]⟩ := by decide

/-! ### Clearing -/

theorem pass_true (beh : Nat → List Act) (f : Nat) : ∀ xs t, (pass beh f xs true t).2 = true := by
  intro xs
  induction xs with
  | nil => intro t; rfl
  | cons x xs ih =>
    intro t
    rw [pass]
    split
    · split
      · split
        · exact ih _
        · rfl
      · exact ih _
    · exact ih _

theorem pass_false (beh : Nat → List Act) (f : Nat) : ∀ xs t t', pass beh f xs false t = (.ok t', false) →
    t' = t ∧ ∀ x ∈ xs, ∀ r, t.recs[x]? = some r → r.inited = false := by
  intro xs
  induction xs with
  | nil =>
    intro t t' h
    simp only [pass, Prod.mk.injEq, Res.ok.injEq] at h
    exact ⟨h.1.symm, by simp⟩
  | cons x xs ih =>
    intro t t' h
    rw [pass] at h
    split at h
    next r hr =>
      split at h
      next hi =>
        split at h
        next t1 he =>
          have := pass_true beh f xs t1
          rw [h] at this
          cases this
        next => exact absurd (congrArg Prod.snd h) (by simp)
      next hi =>
        obtain ⟨a, b⟩ := ih _ _ h
        refine ⟨a, ?_⟩
        intro y hy r' hr'
        rcases List.mem_cons.1 hy with rfl | hy
        · rw [hr] at hr'
          rw [← Option.some.inj hr']
          simpa using hi
        · exact b y hy r' hr'
    next hr =>
      obtain ⟨a, b⟩ := ih _ _ h
      refine ⟨a, ?_⟩
      intro y hy r' hr'
      rcases List.mem_cons.1 hy with rfl | hy
      · rw [hr] at hr'; cases hr'
      · exact b y hy r' hr'

/-- C147: whatever the destructors do with the table meanwhile, when `clear` comes back nothing is set. -/
theorem C147_clear (beh : Nat → List Act) (f : Nat) : ∀ n t t', clear beh f n t = .ok t' →
    (∀ r ∈ t'.recs, r = Rec.none) ∧ ∀ i, getVar t' i = 0 := by
  intro n
  induction n with
  | zero => intro t t' h; simp [clear] at h
  | succ n ih =>
    intro t t' h
    rw [clear] at h
    split at h
    next t1 hp => exact ih _ _ h
    next t1 hp =>
      have := Res.ok.inj h
      subst this
      obtain ⟨a, b⟩ := pass_false beh f _ _ _ hp
      subst a
      have key : ∀ r ∈ t1.recs, r = Rec.none := by
        intro r hr
        obtain ⟨i, hi, e⟩ := List.mem_iff_getElem.1 hr
        have := b i (List.mem_range.2 hi) r (by rw [List.getElem?_eq_getElem hi, e])
        obtain ⟨q, d⟩ := r
        simp only [Rec.inited, Bool.or_eq_false_iff, bne_eq_false_iff_eq] at this
        rw [this.1, this.2]; rfl
      refine ⟨key, ?_⟩
      intro i
      unfold getVar
      cases hi : t1.recs[i]? with
      | none => rfl
      | some r => rw [key r (List.mem_of_getElem? hi)]; rfl
    next o rep h1 h2 _ =>
      subst h
      cases rep with
      | true => exact (h1 t' rfl rfl).elim
      | false => exact (h2 t' rfl rfl).elim

/-- The records from `m` on are not set. -/
def Clean (m : Nat) (t : Tab) : Prop := ∀ j r, m ≤ j → t.recs[j]? = some r → r.inited = false

theorem clean_none (r : Rec) (h : r = Rec.none) : r.inited = false := by subst h; rfl

/-- One round over places `xs`: it ends, and what is clean from `m` on stays so; and a place `m - 1` in `xs` gets
clean. -/
theorem pass_ends (home : Nat → Nat) (beh : Nat → List Act) (ho : Ordered home beh) (m : Nat) : ∀ (xs : List Nat)
    (rep : Bool) (t : Tab), Fine home t → Clean m t → xs.Pairwise (· < ·) →
    ∃ f t' b, (∀ n, f ≤ n → pass beh n xs rep t = (.ok t', b)) ∧ Fine home t' ∧ Clean m t' ∧
      t'.recs.length = t.recs.length ∧
      ((∀ r, t.recs[m - 1]? = some r → r.inited = false) ∨ m - 1 ∈ xs → Clean (m - 1) t') := by
  intro xs
  induction xs with
  | nil =>
    intro rep t hf hc _
    refine ⟨0, t, rep, fun _ _ => rfl, hf, hc, rfl, ?_⟩
    rintro (h | h)
    · intro j r hj hr
      by_cases e : j = m - 1
      · subst e; exact h r hr
      · exact hc j r (by omega) hr
    · simp at h
  | cons x xs ih =>
    intro rep t hf hc hs
    have hs1 := (List.pairwise_cons.1 hs).1
    have hs2 := (List.pairwise_cons.1 hs).2
    -- the place is skipped
    have skip : (∀ r, t.recs[x]? = some r → r.inited = false) → (∀ n, pass beh n (x :: xs) rep t = pass beh n xs rep t) →
        ∃ f t' b, (∀ n, f ≤ n → pass beh n (x :: xs) rep t = (.ok t', b)) ∧ Fine home t' ∧ Clean m t' ∧
          t'.recs.length = t.recs.length ∧
          ((∀ r, t.recs[m - 1]? = some r → r.inited = false) ∨ m - 1 ∈ x :: xs → Clean (m - 1) t') := by
      intro hx he
      obtain ⟨f, t', b, h1, h2, h3, h4, h6⟩ := ih rep t hf hc hs2
      refine ⟨f, t', b, fun n hn => by rw [he]; exact h1 n hn, h2, h3, h4, ?_⟩
      rintro (h | h)
      · exact h6 (Or.inl h)
      · rcases List.mem_cons.1 h with h | h
        · exact h6 (Or.inl (by rw [h]; exact hx))
        · exact h6 (Or.inr h)
    cases hr : t.recs[x]? with
    | none => exact skip (by intro r h; rw [hr] at h; cases h) (by intro n; rw [pass, hr])
    | some r =>
      cases hi : r.inited with
      | false =>
        refine skip ?_ ?_
        · intro r' h; rw [hr] at h; rw [← Option.some.inj h]; exact hi
        · intro n
          rw [pass, hr]
          simp only [hi, Bool.false_eq_true, if_false]
      | true =>
        have hlt := (List.getElem?_eq_some_iff.1 hr).1
        have hxm : x < m := by
          apply Nat.lt_of_not_le
          intro hle
          have := hc x r hle hr
          rw [hi] at this
          cases this
        obtain ⟨f1, hu⟩ := unset_ends home beh ho (x + 1) x (by omega) t hf
        rcases (exec_fine home beh ho f1).1 x t hf with e | ⟨t1, e1, e2, e3, e4⟩
        · exact absurd e hu
        have hc1 : Clean m t1 := by
          intro j r' hj hr'
          rw [e3.2.2.2 j (by omega)] at hr'
          exact hc j r' hj hr'
        obtain ⟨f, t', b, h1, h2, h3, h4, h6⟩ := ih true t1 e2 hc1 hs2
        refine ⟨max f1 f, t', b, ?_, h2, h3, by rw [h4, e3.1], ?_⟩
        · intro n hn
          rw [pass, hr]
          simp only [hi, if_true]
          rw [exec_le beh f1 n _ _ hu (by omega), e1]
          exact h1 n (by omega)
        · rintro (h | h)
          · refine h6 (Or.inl ?_)
            intro r' hr'
            by_cases e : x = m - 1
            · rw [← e] at h
              have := h r hr
              rw [hi] at this
              cases this
            · rw [e3.2.2.2 (m - 1) (by omega)] at hr'
              exact h r' hr'
          · rcases List.mem_cons.1 h with h | h
            · refine h6 (Or.inl ?_)
              intro r' hr'
              rw [h, e4 hlt] at hr'
              rw [← Option.some.inj hr']
              rfl
            · exact h6 (Or.inr h)

theorem range_sorted (n : Nat) : (List.range n).Pairwise (· < ·) := List.pairwise_lt_range

theorem clear_ends (home : Nat → Nat) (beh : Nat → List Act) (ho : Ordered home beh) : ∀ (m : Nat) (t : Tab), Fine home t →
    Clean m t → m ≤ t.recs.length → ∃ f t', (∀ n, f ≤ n → clear beh n (m + 1) t = .ok t') ∧ Fine home t' := by
  intro m
  induction m with
  | zero =>
    intro t hf hc _
    have nothing : ∀ n xs, pass beh n xs false t = (.ok t, false) := by
      intro n xs
      induction xs with
      | nil => rfl
      | cons x xs ih =>
        rw [pass]
        cases hr : t.recs[x]? with
        | none => exact ih
        | some r =>
          have := hc x r (Nat.zero_le _) hr
          simp only [this, Bool.false_eq_true, if_false]
          exact ih
    refine ⟨0, t, ?_, hf⟩
    intro n _
    rw [clear, nothing]
  | succ m ih =>
    intro t hf hc hm
    obtain ⟨f, t1, b, h1, h2, h3, h4, h6⟩ := pass_ends home beh ho (m + 1) (List.range t.recs.length) false t hf hc (range_sorted _)
    have hc1 : Clean m t1 := h6 (Or.inr (List.mem_range.2 (by omega)))
    obtain ⟨f2, t', g1, g2⟩ := ih t1 h2 hc1 (by omega)
    cases b with
    | false =>
      refine ⟨f, t1, ?_, h2⟩
      intro n hn
      rw [clear, h1 n hn]
    | true =>
      refine ⟨max f f2, t', ?_, g2⟩
      intro n hn
      rw [clear, h1 n (by omega)]
      exact g1 n (by omega)

/-- C147: the end of a thread. With ordered destructors `clear` ends, after at most one round more than there are
places, nothing is set, and every value was deleted as often as it was registered. -/
theorem C147_end (home : Nat → Nat) (beh : Nat → List Act) (ho : Ordered home beh) (t : Tab) (hm : Homed home t) (hb : Balanced t) :
    ∃ f t', (∀ n, f ≤ n → clear beh n (t.recs.length + 1) t = .ok t') ∧ (∀ i, getVar t' i = 0) ∧
      ∀ w, t'.gave.count w = t'.dels.count w := by
  obtain ⟨f, t', h1, h2⟩ := clear_ends home beh ho t.recs.length t ⟨hm, hb⟩
    (by intro j r hj hr; have := (List.getElem?_eq_some_iff.1 hr).1; omega) (Nat.le_refl _)
  obtain ⟨c1, c2⟩ := C147_clear beh f _ t t' (h1 f (Nat.le_refl _))
  refine ⟨f, t', h1, c2, ?_⟩
  intro w
  have h0 : owned t' w = 0 := by
    unfold owned
    rw [List.countP_eq_zero]
    intro r hr
    rw [c1 r hr]
    simp [Rec.none]
  have := h2.2 w
  omega

/-- The destructor of 9, a value of the variable 1, sets the variable 0 to 4; the others do nothing. -/
def one : Nat → List Act := fun v => if v = 9 then [.set 0 4] else []
def homeOne : Nat → Nat := fun v => if v = 9 then 1 else 0

theorem one_ordered : Ordered homeOne one := by
  intro v a ha
  by_cases h : v = 9
  · subst h
    have ha : a ∈ [Act.set 0 4] := ha
    rw [List.mem_singleton] at ha
    subst ha
    exact ⟨by decide, by decide⟩
  · simp [one, h] at ha

example : clear one 9 3 ⟨[⟨3, true⟩, ⟨9, true⟩], none, 0, [3, 9], []⟩ =
    .ok ⟨[⟨0, false⟩, ⟨0, false⟩], none, 0, [3, 9, 4], [3, 9, 4]⟩ := by decide

/-! ### The life of a table -/

/-- The tables that come from a new one by calls that come back. -/
inductive Life (home : Nat → Nat) (beh : Nat → List Act) (cap : Option Nat) : Tab → Prop
  | start : Life home beh cap (start cap)
  | set {t t' : Tab} (f i v : Nat) (d : Bool) : Life home beh cap t → (d = true → home v = i) → tvSet beh f i v d t = .ok t' →
      Life home beh cap t'
  | unset {t t' : Tab} (f i : Nat) : Life home beh cap t → exec beh f (.unset i) t = .ok t' → Life home beh cap t'
  | clear {t t' : Tab} (f n : Nat) : Life home beh cap t → clear beh f n t = .ok t' → Life home beh cap t'

theorem pass_fine (home : Nat → Nat) (beh : Nat → List Act) (ho : Ordered home beh) (f : Nat) : ∀ xs rep t t' b, Fine home t →
    pass beh f xs rep t = (.ok t', b) → Fine home t' := by
  intro xs
  induction xs with
  | nil =>
    intro rep t t' b hf h
    simp only [pass, Prod.mk.injEq, Res.ok.injEq] at h
    rw [← h.1]; exact hf
  | cons x xs ih =>
    intro rep t t' b hf h
    rw [pass] at h
    split at h
    · split at h
      · split at h
        next t1 he =>
          rcases (exec_fine home beh ho f).1 x t hf with e | ⟨t2, e1, e2, _⟩
          · rw [e] at he; cases he
          · rw [e1] at he
            rw [← Res.ok.inj he] at h
            exact ih _ _ _ _ e2 h
        next o hn =>
          have := congrArg Prod.fst h
          exact absurd this (hn t')
      · exact ih _ _ _ _ hf h
    · exact ih _ _ _ _ hf h

/-- C147: at every time of the life of a table, with ordered destructors, each value that was registered is deleted once
for each registration, or is still in the table, at the variable where it belongs. -/
theorem C147_once (home : Nat → Nat) (beh : Nat → List Act) (ho : Ordered home beh) (cap : Option Nat) (t : Tab)
    (h : Life home beh cap t) : Homed home t ∧ Balanced t := by
  have key : Fine home t := by
    induction h with
    | start => exact ⟨by intro i r h; simp [start] at h, by intro w; simp [start, owned]⟩
    | @set t t' f i v d _ hh hs ih =>
      unfold tvSet at hs
      rcases (exec_fine home beh ho f).1 i t ih with e | ⟨t1, e1, e2, _⟩
      · rw [e] at hs; cases hs
      · rw [e1] at hs
        have hs : exec beh f (.setVar i v d) t1 = .ok t' := hs
        by_cases hn : (v == 0 && !d && decide (t1.recs.length ≤ i)) = true
        · cases f with
          | zero => cases hs
          | succ f => rw [exec, if_pos hn] at hs; rw [← Res.ok.inj hs]; exact e2
        · have hn : (v == 0 && !d && decide (t1.recs.length ≤ i)) = false := by simpa using hn
          cases hg : grow t1 i with
          | none =>
            cases f with
            | zero => cases hs
            | succ f => rw [exec] at hs; simp only [hn, Bool.false_eq_true, if_false, hg] at hs; cases hs
          | some t2 =>
            obtain ⟨a1, a2, _, _, _, a6⟩ := grow_fine home t1 t2 i e2 hg
            rw [setVar_grow beh f i v d t1 t2 hg a6 a2 hn] at hs
            rcases (exec_fine home beh ho f).2.1 i v d t2 a1 a2 hh with g | ⟨t3, g1, g2, _⟩
            · rw [g] at hs; cases hs
            · rw [g1] at hs; rw [← Res.ok.inj hs]; exact g2
    | @unset t t' f i _ hs ih =>
      rcases (exec_fine home beh ho f).1 i t ih with e | ⟨t1, e1, e2, _⟩
      · rw [e] at hs; cases hs
      · rw [e1] at hs; rw [← Res.ok.inj hs]; exact e2
    | @clear t t' f n _ hs ih =>
      rename_i hl
      clear hl
      revert t
      induction n with
      | zero => intro t hs _; simp [Tls.clear] at hs
      | succ n ihn =>
        intro t hs ih
        rw [Tls.clear] at hs
        split at hs
        next t1 hp => exact ihn hs (pass_fine home beh ho f _ _ _ _ _ ih hp)
        next t1 hp =>
          rw [← Res.ok.inj hs]
          exact pass_fine home beh ho f _ _ _ _ _ ih hp
        next o rep h1 h2 _ =>
          subst hs
          cases rep with
          | true => exact (h1 t' rfl rfl).elim
          | false => exact (h2 t' rfl rfl).elim
  exact key

/-- C147: an index behind the fixed block of a thread is refused; the table stays as it was. -/
theorem C147_refused (beh : Nat → List Act) (f i v : Nat) (t : Tab) (c : Nat) (hc : t.cap = some c) (hi : c ≤ i)
    (hl : t.recs.length ≤ c) : tvSet beh (f + 1) i v true t = .exn t := by
  have h1 : t.recs[i]? = none := List.getElem?_eq_none_iff.2 (by omega)
  have hg : grow t i = none := by
    unfold grow
    rw [if_neg (by omega), hc]
    simp only
    rw [if_neg (by omega)]
  unfold tvSet
  rw [exec, h1]
  show exec beh (f + 1) (.setVar i v true) t = _
  rw [exec]
  simp [hg]

/-- C147: an access with initialisation gives the value that is there, and makes one when there is none; when there is no
room, the new value is deleted. -/
theorem C147_access (i v : Nat) (t : Tab) (n : Nat) :
    (getVar t i ≠ 0 → access (fun _ => []) (n + 3) i v t = .ok t) ∧
    (getVar t i = 0 → Room t i → ∃ t', access (fun _ => []) (n + 3) i v t = .ok t' ∧ getVar t' i = v) ∧
    (getVar t i = 0 → ∀ c, t.cap = some c → c ≤ i → t.recs.length ≤ c →
      access (fun _ => []) (n + 3) i v t = .exn { t with gave := t.gave ++ [v], dels := t.dels ++ [v] }) := by
  refine ⟨?_, ?_, ?_⟩
  · intro h; simp [access, h]
  · intro h hr
    obtain ⟨t', a, b, _⟩ := (C147_plain i v true t n hr).1
    refine ⟨t', ?_, by rw [b]; simp⟩
    simp only [access, h, if_true, init, a]
  · intro h c hc hi hl
    have := C147_refused (fun _ => []) (n + 2) i v t c hc hi hl
    simp only [access, h, if_true, init, this, exec, Res.bind]

example : access (fun _ => []) 3 2 7 (start (some 2)) = .exn ⟨[], some 2, 0, [7], [7]⟩ := by decide

/-! ### The indexes -/

theorem top_mem : ∀ (l : List Nat), l ≠ [] → top l ∈ l
  | [], h => absurd rfl h
  | [x], _ => by simp [top]
  | x :: y :: r, _ => by
    have := top_mem (y :: r) (by simp)
    show max x (top (y :: r)) ∈ _
    by_cases h : x ≤ top (y :: r)
    · rw [Nat.max_eq_right h]; exact List.mem_cons_of_mem _ this
    · rw [Nat.max_eq_left (by omega)]; simp

/-- The indexes of the variables that exist and the free ones are the numbers below `next`, each once. -/
def Indexes (a : Alloc) : Prop := (a.live ++ a.free).Nodup ∧ ∀ x, x ∈ a.live ++ a.free ↔ x < a.next

/-- C147: a new variable has an index that no other one has, and the indexes stay as small as possible: only when none is
free a new one is used. The block of a new thread has a place for all of them. -/
theorem C147_index (a : Alloc) (h : Indexes a) :
    ((alloc a).1 ∉ a.live ∧ Indexes (alloc a).2 ∧ (alloc a).2.live = (alloc a).1 :: a.live ∧
      (a.live.length < a.next → (alloc a).1 < a.next)) ∧
    (∀ i, i ∈ a.live → Indexes (release a i) ∧ (release a i).live = a.live.erase i ∧ i ∉ (release a i).live) ∧
    (a.next < 18446744073709551615 → blockSize a = a.next ∧ ∀ i ∈ a.live, i < blockSize a) := by
  obtain ⟨hn, hm⟩ := h
  have hnd := List.nodup_append.1 hn
  refine ⟨?_, ?_, ?_⟩
  · unfold alloc
    cases hf : a.free with
    | nil =>
      simp only [List.isEmpty_nil, if_true]
      rw [hf] at hm hn
      simp only [List.append_nil] at hm hn
      have hno : a.next ∉ a.live := fun hc => by have := (hm _).1 hc; omega
      refine ⟨hno, ⟨?_, ?_⟩, trivial, ?_⟩
      · show (a.next :: a.live ++ []).Nodup
        rw [List.append_nil]
        exact List.nodup_cons.2 ⟨hno, hn⟩
      · intro x
        show x ∈ a.next :: a.live ++ [] ↔ x < a.next + 1
        rw [List.append_nil, List.mem_cons, hm]
        omega
      · intro hl
        exfalso
        have e : a.live.Perm (List.range a.next) := by
          rw [List.perm_ext_iff_of_nodup hn List.nodup_range]
          intro x
          rw [hm, List.mem_range]
        have := e.length_eq
        rw [List.length_range] at this
        omega
    | cons y r =>
      have hne : a.free ≠ [] := by rw [hf]; simp
      have ht := top_mem a.free hne
      rw [← hf]
      have he : a.free.isEmpty = false := by rw [hf]; rfl
      simp only [he, Bool.false_eq_true, if_false]
      have hlt : top a.free < a.next := (hm _).1 (List.mem_append_right _ ht)
      have hno : top a.free ∉ a.live := fun hc => hnd.2.2 _ hc _ ht rfl
      refine ⟨hno, ⟨?_, ?_⟩, by simp [hlt]⟩
      · show (top a.free :: a.live ++ a.free.erase (top a.free)).Nodup
        have : (top a.free :: a.live ++ a.free.erase (top a.free)).Perm (a.live ++ a.free) := by
          rw [List.cons_append]
          refine List.Perm.trans List.perm_middle.symm ?_
          exact List.Perm.append_left _ (List.perm_cons_erase ht).symm
        exact this.nodup_iff.2 hn
      · intro x
        show x ∈ top a.free :: a.live ++ a.free.erase (top a.free) ↔ x < a.next
        have : (top a.free :: a.live ++ a.free.erase (top a.free)).Perm (a.live ++ a.free) := by
          rw [List.cons_append]
          refine List.Perm.trans List.perm_middle.symm ?_
          exact List.Perm.append_left _ (List.perm_cons_erase ht).symm
        rw [this.mem_iff, hm]
  · intro i hi
    have hno : i ∉ a.live.erase i := by
      intro hc
      rw [hnd.1.mem_erase_iff] at hc
      exact hc.1 rfl
    have hlt : i < a.next := (hm i).1 (List.mem_append_left _ hi)
    have hif : i ∉ a.free := fun hc => hnd.2.2 _ hi _ hc rfl
    unfold release
    by_cases h1 : i + 1 = a.next
    · simp only [h1, if_true]
      refine ⟨⟨?_, ?_⟩, trivial, hno⟩
      · show (a.live.erase i ++ a.free).Nodup
        exact List.nodup_append.2 ⟨hnd.1.erase i, hnd.2.1, fun x hx y hy => hnd.2.2 x (List.mem_of_mem_erase hx) y hy⟩
      · intro x
        show x ∈ a.live.erase i ++ a.free ↔ x < a.next - 1
        rw [List.mem_append, hnd.1.mem_erase_iff]
        have := hm x
        rw [List.mem_append] at this
        constructor
        · rintro (⟨p, q⟩ | p)
          · have := this.1 (Or.inl q); omega
          · have h2 := this.1 (Or.inr p)
            have : x ≠ i := by rintro rfl; exact hif p
            omega
        · intro hx
          rcases this.2 (by omega) with p | p
          · exact Or.inl ⟨by omega, p⟩
          · exact Or.inr p
    · simp only [h1, if_false, hlt, if_true]
      have pm : (a.live.erase i ++ i :: a.free).Perm (a.live ++ a.free) := by
        refine List.Perm.trans List.perm_middle ?_
        rw [← List.cons_append]
        exact List.Perm.append_right _ (List.perm_cons_erase hi).symm
      refine ⟨⟨pm.nodup_iff.2 hn, ?_⟩, trivial, hno⟩
      intro x
      show x ∈ a.live.erase i ++ i :: a.free ↔ x < a.next
      rw [pm.mem_iff, hm]
  · intro hb
    have e : blockSize a = a.next := by
      unfold blockSize
      by_cases h0 : a.next = 0
      · rw [h0]
      · have : (a.next + 18446744073709551615) % 18446744073709551616 = a.next - 1 := by omega
        rw [this]
        omega
    refine ⟨e, ?_⟩
    intro i hi
    rw [e]
    exact (hm i).1 (List.mem_append_left _ hi)

example : Indexes ⟨0, [], []⟩ := ⟨by simp, by simp⟩
example : (alloc (release ((alloc (alloc (alloc ⟨0, [], []⟩).2).2).2) 1)) = (1, ⟨3, [], [1, 2, 0]⟩) := by decide

/-! ### What is wrong -/

/-- C147 is violated: a value that `setValue` cannot register is lost: it is not in the table and not deleted. -/
theorem C147_leak_violated : setValue (fun _ => []) 3 2 7 (start (some 2)) = .exn (start (some 2)) := by decide

/-- C147 is violated: a new variable gets the index of a removed one, and shows the old value, of another type, in the
threads where it was set. -/
theorem C147_reuse_violated : ∃ t, tvSet (fun _ => []) 3 (alloc ⟨0, [], []⟩).1 7 true (start none) = .ok t ∧
    ∃ i, (alloc (release (alloc ⟨0, [], []⟩).2 0)).1 = i ∧ getVar t i = 7 := ⟨_, rfl, 0, by decide⟩

/-- C147 is violated: the destructor of an old value that sets a variable with a new index moves the array, and
`setVar` writes into the old one. -/
theorem C147_stale_violated : exec (fun v => if v = 9 then [.set 1000 4] else []) 9 (.setVar 0 8 true)
    ⟨[⟨9, true⟩], none, 0, [9], []⟩ = .ub := by decide +kernel

/-- C147 is violated: when the destructors of two values set the variable again, a value is overwritten and not
deleted. -/
theorem C147_lost_violated : ∃ t, tvSet (fun v => if v = 9 then [.set 0 8] else if v = 8 then [.set 0 7] else []) 9 0 5 true
    ⟨[⟨9, true⟩], none, 0, [9], []⟩ = .ok t ∧ 7 ∈ t.gave ∧ 7 ∉ t.dels ∧ t.recs = [⟨5, true⟩] := ⟨_, rfl, by decide⟩

/-- C147 is violated: `clear` does not end when a destructor sets its own variable again. -/
theorem C147_endless_violated (f n : Nat) : ∀ t, t.recs = [⟨9, true⟩] → ∀ t', clear (fun _ => [.set 0 9]) f n t ≠ .ok t' := by
  induction n with
  | zero => intro t _ t' h; cases h
  | succ n ih =>
    intro t ht t' h
    rw [clear, ht] at h
    simp only [List.length_singleton, show List.range 1 = [0] from rfl, pass, ht, List.getElem?_cons_zero, Rec.inited,
      Bool.true_or, if_true] at h
    cases he : exec (fun _ => [Act.set 0 9]) f (.unset 0) t with
    | ok t1 =>
      rw [he] at h
      refine ih t1 ?_ t' h
      rcases f with _ | _ | _ | _ | f
      · cases he
      · simp [exec, ht] at he
      · simp [exec, ht, Res.bind] at he
      · simp [exec, ht, Res.bind, grow, Rec.none] at he
      · simp [exec, ht, Res.bind, grow, Rec.none] at he
        rw [← he]
    | exn t1 => rw [he] at h; cases h
    | ub => rw [he] at h; cases h
    | fuel => rw [he] at h; cases h

/-- C147 is violated: `moveTo` gives the values to the new table and then deletes them: the new table has a deleted value
and deletes it again. -/
theorem C147_move_violated : ∃ n, moveTo ⟨[⟨7, true⟩], none, 1, [7], []⟩ (start none) 5 = (⟨[], none, 1, [7], [7]⟩, .ok n) ∧
    getVar n 0 = 7 ∧ ∃ m, clear (fun _ => []) 5 5 n = .ok m ∧ m.dels = [7] := ⟨_, rfl, by decide, _, rfl, by decide⟩

end LS.Tls

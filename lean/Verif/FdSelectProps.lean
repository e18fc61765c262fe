import Verif.FdSelect

/-
The waiting for descriptors (C145). The specification speaks of which descriptors are
registered with what (`Reg`) and of which have something to tell that was not told yet
(`Unseen`); it does not use the index.
-/

namespace LS.FdSelect

/-! ### Specification -/

/-- The descriptor `g` is registered, with this record for `poll` and these extras. -/
def Reg (s : Sel) (g : Nat) (e : PFd) (x : Ext) : Prop :=
  ∃ p : Nat, s.fds[p]? = some e ∧ s.ext[p]? = some x ∧ e.fd = g

/-- The descriptor `g` has something to tell that was not told yet. -/
def Unseen (s : Sel) (g : Nat) : Prop :=
  ∃ (p : Nat) (e : PFd), s.cur ≤ p ∧ s.fds[p]? = some e ∧ e.fd = g ∧ signaled e = true

/-- The lists and the index belong together. -/
def WF (s : Sel) : Prop :=
  s.ext.length = s.fds.length ∧
  ∀ g p, s.idx g = some p ↔ ∃ e, s.fds[p]? = some e ∧ e.fd = g

/-! ### Places -/

theorem ext_of {s : Sel} (h : WF s) {p : Nat} {e : PFd} (he : s.fds[p]? = some e) :
    ∃ x, s.ext[p]? = some x := by
  have hp : p < s.fds.length := (List.getElem?_eq_some_iff.1 he).1
  exact ⟨s.ext[p]'(by rw [h.1]; exact hp), List.getElem?_eq_getElem _⟩

theorem place_eq {s : Sel} (h : WF s) {p q : Nat} {e e' : PFd} (he : s.fds[p]? = some e)
    (he' : s.fds[q]? = some e') (hf : e.fd = e'.fd) : p = q := by
  have h1 := (h.2 e'.fd p).2 ⟨e, he, hf⟩
  have h2 := (h.2 e'.fd q).2 ⟨e', he', rfl⟩
  rw [h1] at h2
  exact Option.some.inj h2

theorem reg_unique {s : Sel} (h : WF s) {g : Nat} {e e' : PFd} {x x' : Ext} (h1 : Reg s g e x)
    (h2 : Reg s g e' x') : e = e' ∧ x = x' := by
  obtain ⟨p, a, b, c⟩ := h1
  obtain ⟨q, a', b', c'⟩ := h2
  have := place_eq h a a' (by rw [c, c'])
  subst this
  rw [a] at a'
  rw [b] at b'
  exact ⟨Option.some.inj a', Option.some.inj b'⟩

theorem reg_of_idx {s : Sel} (h : WF s) {g p : Nat} (hi : s.idx g = some p) :
    ∃ e x, s.fds[p]? = some e ∧ s.ext[p]? = some x ∧ e.fd = g := by
  obtain ⟨e, he, hf⟩ := (h.2 g p).1 hi
  obtain ⟨x, hx⟩ := ext_of h he
  exact ⟨e, x, he, hx, hf⟩

theorem idx_none {s : Sel} (h : WF s) {g : Nat} (hi : s.idx g = none) (e : PFd) (x : Ext) :
    ¬ Reg s g e x := by
  rintro ⟨p, a, _, c⟩
  have := (h.2 g p).2 ⟨e, a, c⟩
  rw [hi] at this
  cases this

/-- What a removal leaves at a place. -/
theorem rm_get {α : Type} (l : List α) (p : Nat) (hp : p < l.length) (last : α)
    (q : Nat) :
    (if p = l.length - 1 then l.eraseIdx p else (l.set p last).eraseIdx (l.length - 1))[q]? =
      if q < l.length - 1 then (if q = p then some last else l[q]?) else none := by
  by_cases h : p = l.length - 1
  · rw [if_pos h, List.getElem?_eraseIdx]
    by_cases hq : q < l.length - 1
    · have : q ≠ p := by omega
      rw [if_pos (by omega), if_pos hq, if_neg this]
    · rw [if_neg (by omega), if_neg hq]
      exact List.getElem?_eq_none (by omega)
  · rw [if_neg h, List.getElem?_eraseIdx]
    by_cases hq : q < l.length - 1
    · rw [if_pos hq, if_pos hq]
      by_cases hqp : q = p
      · subst hqp; simp [hp]
      · rw [if_neg hqp, List.getElem?_set_ne (by omega)]
    · rw [if_neg hq, if_neg hq]
      exact List.getElem?_eq_none (by simp; omega)

/-- A removal, with its parts. -/
theorem removeFd_eq (s : Sel) (h : WF s) (p : Nat) (e : PFd) (he : s.fds[p]? = some e) :
    ∃ l x, s.fds[s.fds.length - 1]? = some l ∧ s.ext[s.fds.length - 1]? = some x ∧
      (∀ q, (removeFd s p).fds[q]? = if q < s.fds.length - 1 then (if q = p then some l else s.fds[q]?) else none) ∧
      (∀ q, (removeFd s p).ext[q]? = if q < s.fds.length - 1 then (if q = p then some x else s.ext[q]?) else none) ∧
      (removeFd s p).idx = (if p = s.fds.length - 1 then upd s.idx e.fd none
        else upd (upd s.idx e.fd none) l.fd (some p)) ∧
      (removeFd s p).cur = (if p < s.cur then p else s.cur) := by
  have hp : p < s.fds.length := (List.getElem?_eq_some_iff.1 he).1
  have hl : ∃ l, s.fds[s.fds.length - 1]? = some l := ⟨_, List.getElem?_eq_getElem (by omega)⟩
  obtain ⟨l, hl⟩ := hl
  obtain ⟨x, hx⟩ := ext_of h hl
  have hl2 : s.fds.getLast? = some l := by rw [List.getLast?_eq_getElem?]; exact hl
  have hx2 : s.ext.getLast? = some x := by rw [List.getLast?_eq_getElem?, h.1]; exact hx
  have r1 := rm_get s.fds p hp l
  have r2 := rm_get s.ext p (by rw [h.1]; exact hp) x
  rw [h.1] at r2
  refine ⟨l, x, hl, hx, ?_, ?_, ?_, ?_⟩
  · intro q
    rw [← r1 q]
    simp only [removeFd, he, hl2, hx2]
    by_cases hc : p = s.fds.length - 1 <;> simp [hc]
  · intro q
    rw [← r2 q]
    simp only [removeFd, he, hl2, hx2]
    by_cases hc : p = s.fds.length - 1 <;> simp [hc]
  · simp only [removeFd, he, hl2, hx2]
    by_cases hc : p = s.fds.length - 1 <;> simp [hc]
  · simp only [removeFd, he, hl2, hx2]
    by_cases hc : p = s.fds.length - 1 <;> simp [hc]

/-! ### The registered descriptors -/

theorem set_wf (s : Sel) (h : WF s) (f : Info) : WF (set s f) ∧
    ∀ g e x, Reg (set s f) g e x ↔
      if g = f.fd then e = ⟨f.fd, toEv f.mask, Ev.none⟩ ∧ x = ⟨f.data, f.tm⟩ else Reg s g e x := by
  cases hi : s.idx f.fd with
  | none =>
    have hs : set s f = { s with fds := s.fds ++ [⟨f.fd, toEv f.mask, Ev.none⟩], ext := s.ext ++ [⟨f.data, f.tm⟩], idx := upd s.idx f.fd (some s.fds.length) } := by
      simp [set, hi]
    have gf : ∀ q : Nat, (s.fds ++ [(⟨f.fd, toEv f.mask, Ev.none⟩ : PFd)])[q]? =
        if q = s.fds.length then some ⟨f.fd, toEv f.mask, Ev.none⟩ else s.fds[q]? := by
      intro q
      by_cases hq : q = s.fds.length
      · subst hq; simp
      · by_cases hlt : q < s.fds.length
        · rw [List.getElem?_append_left hlt, if_neg hq]
        · rw [if_neg hq, List.getElem?_eq_none (by simp; omega), List.getElem?_eq_none (by omega)]
    have gx : ∀ q : Nat, (s.ext ++ [(⟨f.data, f.tm⟩ : Ext)])[q]? =
        if q = s.fds.length then some ⟨f.data, f.tm⟩ else s.ext[q]? := by
      intro q
      rw [← h.1]
      by_cases hq : q = s.ext.length
      · subst hq; simp
      · by_cases hlt : q < s.ext.length
        · rw [List.getElem?_append_left hlt, if_neg hq]
        · rw [if_neg hq, List.getElem?_eq_none (by simp; omega), List.getElem?_eq_none (by omega)]
    rw [hs]
    refine ⟨⟨by simp [h.1], ?_⟩, ?_⟩
    · intro g p
      simp only [gf, upd]
      by_cases hg : g = f.fd
      · subst hg
        simp only [if_true]
        constructor
        · intro e
          have : s.fds.length = p := Option.some.inj e
          subst this
          exact ⟨_, by rw [if_pos rfl], rfl⟩
        · rintro ⟨e, he, hf⟩
          by_cases hp : p = s.fds.length
          · rw [hp]
          · rw [if_neg hp] at he
            have := (h.2 f.fd p).2 ⟨e, he, hf⟩
            rw [hi] at this; cases this
      · simp only [if_neg hg]
        rw [h.2 g p]
        constructor
        · rintro ⟨e, he, hf⟩
          have hp : p < s.fds.length := (List.getElem?_eq_some_iff.1 he).1
          exact ⟨e, by rw [if_neg (by omega)]; exact he, hf⟩
        · rintro ⟨e, he, hf⟩
          by_cases hp : p = s.fds.length
          · rw [if_pos hp] at he
            have := Option.some.inj he
            rw [← this] at hf
            exact absurd hf.symm hg
          · rw [if_neg hp] at he
            exact ⟨e, he, hf⟩
    · intro g e x
      constructor
      · rintro ⟨p, a, b, c⟩
        simp only [gf] at a
        simp only [gx] at b
        by_cases hp : p = s.fds.length
        · rw [if_pos hp] at a b
          have ea := Option.some.inj a
          have eb := Option.some.inj b
          rw [← ea] at c
          rw [if_pos c.symm]
          exact ⟨ea.symm, eb.symm⟩
        · rw [if_neg hp] at a b
          by_cases hg : g = f.fd
          · exact absurd ⟨p, a, b, by rw [c, hg]⟩ (idx_none h hi e x)
          · rw [if_neg hg]; exact ⟨p, a, b, c⟩
      · intro hr
        by_cases hg : g = f.fd
        · rw [if_pos hg] at hr
          obtain ⟨rfl, rfl⟩ := hr
          exact ⟨s.fds.length, by simp only [gf, if_true], by simp only [gx, if_true], hg.symm⟩
        · rw [if_neg hg] at hr
          obtain ⟨p, a, b, c⟩ := hr
          have hp : p < s.fds.length := (List.getElem?_eq_some_iff.1 a).1
          exact ⟨p, by simp only [gf]; rw [if_neg (by omega)]; exact a,
            by simp only [gx]; rw [if_neg (by omega)]; exact b, c⟩
  | some q =>
    obtain ⟨e0, x0, h1, h2, h3⟩ := reg_of_idx h hi
    have hq : q < s.fds.length := (List.getElem?_eq_some_iff.1 h1).1
    have hs : set s f = { s with fds := s.fds.modify q (fun e => ⟨e.fd, toEv f.mask, Ev.none⟩), ext := s.ext.set q ⟨f.data, f.tm⟩ } := by
      simp [set, hi]
    have gf : ∀ p : Nat, (s.fds.modify q (fun e => (⟨e.fd, toEv f.mask, Ev.none⟩ : PFd)))[p]? =
        if p = q then some ⟨f.fd, toEv f.mask, Ev.none⟩ else s.fds[p]? := by
      intro p
      rw [List.getElem?_modify]
      by_cases hp : p = q
      · subst hp
        rw [h1, if_pos rfl]
        simp [h3]
      · rw [if_neg hp]
        have : ¬ (q = p) := fun e => hp e.symm
        simp [this]
    have gx : ∀ p : Nat, (s.ext.set q (⟨f.data, f.tm⟩ : Ext))[p]? =
        if p = q then some ⟨f.data, f.tm⟩ else s.ext[p]? := by
      intro p
      by_cases hp : p = q
      · subst hp
        rw [if_pos rfl, List.getElem?_set_self (by rw [h.1]; exact hq)]
      · rw [if_neg hp, List.getElem?_set_ne (fun e => hp e.symm)]
    rw [hs]
    refine ⟨⟨by simp [h.1], ?_⟩, ?_⟩
    · intro g p
      simp only [gf]
      rw [h.2 g p]
      by_cases hp : p = q
      · subst hp
        simp only [if_true]
        constructor
        · rintro ⟨e, he, hf⟩
          rw [h1] at he
          have := Option.some.inj he
          exact ⟨_, rfl, by rw [← hf, ← this, h3]⟩
        · rintro ⟨e, he, hf⟩
          have := Option.some.inj he
          refine ⟨e0, h1, ?_⟩
          rw [h3, ← hf, ← this]
      · simp only [if_neg hp]
    · intro g e x
      constructor
      · rintro ⟨p, a, b, c⟩
        simp only [gf] at a
        simp only [gx] at b
        by_cases hp : p = q
        · rw [if_pos hp] at a b
          have ea := Option.some.inj a
          have eb := Option.some.inj b
          rw [← ea] at c
          rw [if_pos c.symm]
          exact ⟨ea.symm, eb.symm⟩
        · rw [if_neg hp] at a b
          by_cases hg : g = f.fd
          · exact absurd (place_eq h a h1 (by rw [c, hg, h3])) hp
          · rw [if_neg hg]; exact ⟨p, a, b, c⟩
      · intro hr
        by_cases hg : g = f.fd
        · rw [if_pos hg] at hr
          obtain ⟨rfl, rfl⟩ := hr
          exact ⟨q, by simp only [gf, if_true], by simp only [gx, if_true], hg.symm⟩
        · rw [if_neg hg] at hr
          obtain ⟨p, a, b, c⟩ := hr
          have hp : p ≠ q := by
            rintro rfl
            rw [h1] at a
            have := Option.some.inj a
            exact hg (by rw [← c, ← this, h3])
          exact ⟨p, by simp only [gf]; rw [if_neg hp]; exact a,
            by simp only [gx]; rw [if_neg hp]; exact b, c⟩

theorem removeFd_wf (s : Sel) (h : WF s) (p : Nat) (e : PFd) (he : s.fds[p]? = some e) :
    WF (removeFd s p) ∧
    (∀ g e' x', Reg (removeFd s p) g e' x' ↔ g ≠ e.fd ∧ Reg s g e' x') ∧
    (∀ g, Unseen s g → g ≠ e.fd → Unseen (removeFd s p) g) := by
  obtain ⟨l, x, hl, hx, gf, gx, hidx, hcur⟩ := removeFd_eq s h p e he
  have hp : p < s.fds.length := (List.getElem?_eq_some_iff.1 he).1
  -- where a place of the new list was, and where an old place is
  have back : ∀ q e', (removeFd s p).fds[q]? = some e' →
      ∃ r, s.fds[r]? = some e' ∧ r ≠ p ∧ (removeFd s p).ext[q]? = s.ext[r]? ∧ q ≤ r ∧
        q < s.fds.length - 1 ∧ (q = p ∧ r = s.fds.length - 1 ∨ q ≠ p ∧ r = q) := by
    intro q e' hq
    rw [gf] at hq
    by_cases h1 : q < s.fds.length - 1
    · rw [if_pos h1] at hq
      by_cases h2 : q = p
      · rw [if_pos h2] at hq
        refine ⟨s.fds.length - 1, by rw [hl]; exact hq, by omega, ?_, by omega, h1, Or.inl ⟨h2, rfl⟩⟩
        rw [gx, if_pos h1, if_pos h2, hx]
      · rw [if_neg h2] at hq
        refine ⟨q, hq, h2, ?_, Nat.le_refl _, h1, Or.inr ⟨h2, rfl⟩⟩
        rw [gx, if_pos h1, if_neg h2]
    · rw [if_neg h1] at hq; cases hq
  have forth : ∀ r e', s.fds[r]? = some e' → r ≠ p →
      ∃ q, (removeFd s p).fds[q]? = some e' ∧ (removeFd s p).ext[q]? = s.ext[r]? ∧
        (q = r ∨ q = p) := by
    intro r e' hr hne
    have hrl : r < s.fds.length := (List.getElem?_eq_some_iff.1 hr).1
    by_cases h1 : r = s.fds.length - 1
    · refine ⟨p, ?_, ?_, Or.inr rfl⟩
      · rw [gf, if_pos (by omega), if_pos rfl, ← hl, ← h1]; exact hr
      · rw [gx, if_pos (by omega), if_pos rfl, ← hx, ← h1]
    · refine ⟨r, ?_, ?_, Or.inl rfl⟩
      · rw [gf, if_pos (by omega), if_neg hne]; exact hr
      · rw [gx, if_pos (by omega), if_neg hne]
  have hlen : (removeFd s p).fds.length = s.fds.length - 1 := by
    apply Nat.le_antisymm
    · apply Nat.le_of_not_lt
      intro hlt
      have a := gf (s.fds.length - 1)
      rw [if_neg (Nat.lt_irrefl _), List.getElem?_eq_getElem hlt] at a
      cases a
    · apply Nat.le_of_not_lt
      intro hlt
      have a := gf (removeFd s p).fds.length
      rw [if_pos hlt, List.getElem?_eq_none (Nat.le_refl _)] at a
      by_cases h2 : (removeFd s p).fds.length = p
      · rw [if_pos h2] at a; cases a
      · rw [if_neg h2, List.getElem?_eq_getElem (by omega)] at a; cases a
  have hlen2 : (removeFd s p).ext.length = s.fds.length - 1 := by
    apply Nat.le_antisymm
    · apply Nat.le_of_not_lt
      intro hlt
      have a := gx (s.fds.length - 1)
      rw [if_neg (Nat.lt_irrefl _), List.getElem?_eq_getElem hlt] at a
      cases a
    · apply Nat.le_of_not_lt
      intro hlt
      have a := gx (removeFd s p).ext.length
      rw [if_pos hlt, List.getElem?_eq_none (Nat.le_refl _)] at a
      by_cases h2 : (removeFd s p).ext.length = p
      · rw [if_pos h2] at a; cases a
      · rw [if_neg h2, List.getElem?_eq_getElem (by rw [h.1]; omega)] at a; cases a
  refine ⟨⟨by rw [hlen, hlen2], ?_⟩, ?_, ?_⟩
  · intro g q
    have key : (removeFd s p).idx g = some q ↔
        (g ≠ e.fd ∧ ∃ r, s.idx g = some r ∧ (r = s.fds.length - 1 ∧ q = p ∨ r ≠ s.fds.length - 1 ∧ q = r)) := by
      rw [hidx]
      by_cases hc : p = s.fds.length - 1
      · rw [if_pos hc]
        simp only [upd]
        by_cases hg : g = e.fd
        · simp [hg]
        · rw [if_neg hg]
          constructor
          · intro hq
            refine ⟨hg, q, hq, Or.inr ⟨?_, rfl⟩⟩
            rintro rfl
            obtain ⟨e', a, b⟩ := (h.2 g _).1 hq
            rw [← hc, he] at a
            exact hg (by rw [← b, ← Option.some.inj a])
          · rintro ⟨_, r, hr, ⟨h1, h2⟩ | ⟨h1, h2⟩⟩
            · rw [hr, h1, h2, hc]
            · rw [hr, h2]
      · rw [if_neg hc]
        have hle : l.fd ≠ e.fd := by
          intro heq
          exact hc (place_eq h he hl heq.symm)
        simp only [upd]
        by_cases hg : g = l.fd
        · rw [if_pos hg]
          have hidl : s.idx g = some (s.fds.length - 1) := (h.2 g _).2 ⟨l, hl, hg.symm⟩
          constructor
          · intro hq
            exact ⟨by rw [hg]; exact hle, _, hidl, Or.inl ⟨rfl, (Option.some.inj hq).symm⟩⟩
          · rintro ⟨_, r, hr, ⟨h1, h2⟩ | ⟨h1, h2⟩⟩
            · rw [h2]
            · rw [hidl] at hr
              exact absurd (Option.some.inj hr).symm h1
        · rw [if_neg hg]
          by_cases hge : g = e.fd
          · simp [hge]
          · rw [if_neg hge]
            constructor
            · intro hq
              refine ⟨hge, q, hq, Or.inr ⟨?_, rfl⟩⟩
              rintro rfl
              obtain ⟨e', a, b⟩ := (h.2 g _).1 hq
              rw [hl] at a
              exact hg (by rw [← b, ← Option.some.inj a])
            · rintro ⟨_, r, hr, ⟨h1, h2⟩ | ⟨h1, h2⟩⟩
              · obtain ⟨e', a, b⟩ := (h.2 g _).1 hr
                rw [h1, hl] at a
                exact absurd (by rw [← b, ← Option.some.inj a]) hg
              · rw [hr, h2]
    rw [key]
    constructor
    · rintro ⟨hg, r, hr, hcase⟩
      obtain ⟨e', a, b⟩ := (h.2 g r).1 hr
      have hrp : r ≠ p := by
        rintro rfl
        rw [he] at a
        exact hg (by rw [← b, ← Option.some.inj a])
      have hrl : r < s.fds.length := (List.getElem?_eq_some_iff.1 a).1
      refine ⟨e', ?_, b⟩
      rcases hcase with ⟨h1, h2⟩ | ⟨h1, h2⟩
      · have hlt : p < s.fds.length - 1 := by clear hcur hg b; omega
        rw [h2, gf, if_pos hlt, if_pos rfl, ← hl, ← h1]; exact a
      · have hlt : r < s.fds.length - 1 := Nat.lt_of_le_of_ne (Nat.le_sub_one_of_lt hrl) h1
        rw [h2, gf, if_pos hlt, if_neg hrp]; exact a
    · rintro ⟨e', a, b⟩
      obtain ⟨r, a1, a2, _, _, a5, a6⟩ := back q e' a
      refine ⟨?_, r, (h.2 g r).2 ⟨e', a1, b⟩, ?_⟩
      · intro hg
        exact a2 (place_eq h a1 he (by rw [b, hg]))
      · rcases a6 with ⟨h1, h2⟩ | ⟨h1, h2⟩
        · exact Or.inl ⟨h2, h1⟩
        · exact Or.inr ⟨by omega, h2.symm⟩
  · intro g e' x'
    constructor
    · rintro ⟨q, a, b, c⟩
      obtain ⟨r, a1, a2, a3, _, _, _⟩ := back q e' a
      refine ⟨?_, r, a1, by rw [← a3]; exact b, c⟩
      intro hg
      exact a2 (place_eq h a1 he (by rw [c, hg]))
    · rintro ⟨hg, r, a, b, c⟩
      have hrp : r ≠ p := by
        rintro rfl
        rw [he] at a
        exact hg (by rw [← c, ← Option.some.inj a])
      obtain ⟨q, a1, a2, _⟩ := forth r e' a hrp
      exact ⟨q, a1, by rw [a2]; exact b, c⟩
  · rintro g ⟨r, e', a0, a, b, c⟩ hg
    have hrp : r ≠ p := by
      rintro rfl
      rw [he] at a
      exact hg (by rw [← b, ← Option.some.inj a])
    obtain ⟨q, a1, a2, a3⟩ := forth r e' a hrp
    refine ⟨q, e', ?_, a1, b, c⟩
    rw [hcur]
    by_cases hpc : p < s.cur
    · rw [if_pos hpc]
      rcases a3 with rfl | rfl
      · exact Nat.le_trans (Nat.le_of_lt hpc) a0
      · exact Nat.le_refl _
    · rw [if_neg hpc]
      rcases a3 with rfl | rfl
      · exact a0
      · exact Nat.le_of_not_lt hpc

/-- C145: what is registered. Setting, removing and asking behave as a map from descriptors; and
a removal does not lose what others have to tell. -/
theorem C145_registry (s : Sel) (h : WF s) :
    (∀ f, WF (set s f) ∧ ∀ g e x, Reg (set s f) g e x ↔
      if g = f.fd then e = ⟨f.fd, toEv f.mask, Ev.none⟩ ∧ x = ⟨f.data, f.tm⟩ else Reg s g e x) ∧
    (∀ k, WF (unset s k).2 ∧ (∀ g e x, Reg (unset s k).2 g e x ↔ g ≠ k ∧ Reg s g e x) ∧
      (∀ e x, Reg s k e x → (unset s k).1 = x.data) ∧
      ((∀ e x, ¬ Reg s k e x) → unset s k = (0, s)) ∧
      ∀ g, Unseen s g → g ≠ k → Unseen (unset s k).2 g) ∧
    (∀ k, (isSet s k = true ↔ ∃ e x, Reg s k e x) ∧
      (∀ e x, Reg s k e x → getData s k = (x.data, true)) ∧
      ((∀ e x, ¬ Reg s k e x) → getData s k = (0, false))) ∧
    (hasItems s = true ↔ ∃ g e x, Reg s g e x) := by
  have found : ∀ k e x, Reg s k e x → ∃ p, s.idx k = some p ∧ s.fds[p]? = some e ∧ s.ext[p]? = some x := by
    rintro k e x ⟨p, a, b, c⟩
    exact ⟨p, (h.2 k p).2 ⟨e, a, c⟩, a, b⟩
  refine ⟨set_wf s h, ?_, ?_, ?_⟩
  · intro k
    cases hi : s.idx k with
    | none =>
      have hu : unset s k = (0, s) := by simp [unset, hi]
      rw [hu]
      refine ⟨h, ?_, ?_, fun _ => rfl, fun g hg _ => hg⟩
      · intro g e x
        refine ⟨fun hr => ⟨?_, hr⟩, fun hr => hr.2⟩
        rintro rfl
        exact idx_none h hi e x hr
      · intro e x hr
        exact absurd hr (idx_none h hi e x)
    | some p =>
      obtain ⟨e0, x0, h1, h2, h3⟩ := reg_of_idx h hi
      have hu : unset s k = (x0.data, removeFd s p) := by simp [unset, hi, h2]
      obtain ⟨b1, b2, b3⟩ := removeFd_wf s h p e0 h1
      rw [hu]
      rw [h3] at b2 b3
      refine ⟨b1, b2, ?_, ?_, b3⟩
      · intro e x hr
        rw [(reg_unique h hr ⟨p, h1, h2, h3⟩).2]
      · intro hn
        exact absurd ⟨p, h1, h2, h3⟩ (hn e0 x0)
  · intro k
    cases hi : s.idx k with
    | none =>
      have hn := idx_none h hi
      refine ⟨⟨fun hc => ?_, ?_⟩, ?_, ?_⟩
      · simp [isSet, hi] at hc
      · rintro ⟨e, x, hr⟩; exact absurd hr (hn e x)
      · intro e x hr; exact absurd hr (hn e x)
      · intro _; simp [getData, hi]
    | some p =>
      obtain ⟨e0, x0, h1, h2, h3⟩ := reg_of_idx h hi
      refine ⟨⟨fun _ => ⟨e0, x0, p, h1, h2, h3⟩, fun _ => by simp [isSet, hi]⟩, ?_, ?_⟩
      · intro e x hr
        rw [(reg_unique h hr ⟨p, h1, h2, h3⟩).2]
        simp [getData, hi, h2]
      · intro hn
        exact absurd ⟨p, h1, h2, h3⟩ (hn e0 x0)
  · constructor
    · intro hh
      cases hf : s.fds with
      | nil => simp [hasItems, hf] at hh
      | cons e r =>
        have he : s.fds[0]? = some e := by rw [hf]; rfl
        obtain ⟨x, hx⟩ := ext_of h he
        exact ⟨e.fd, e, x, 0, he, hx, rfl⟩
    · rintro ⟨g, e, x, p, a, _⟩
      cases hf : s.fds with
      | nil => rw [hf] at a; simp at a
      | cons e r => simp [hasItems, hf]

/-- C145: setting one descriptor does not change what the others have to tell. -/
theorem C145_set_keeps (s : Sel) (h : WF s) (f : Info) (g : Nat) (hg : g ≠ f.fd) :
    Unseen (set s f) g ↔ Unseen s g := by
  cases hi : s.idx f.fd with
  | none =>
    have hs : set s f = { s with fds := s.fds ++ [⟨f.fd, toEv f.mask, Ev.none⟩], ext := s.ext ++ [⟨f.data, f.tm⟩], idx := upd s.idx f.fd (some s.fds.length) } := by
      simp [set, hi]
    rw [hs]
    constructor
    · rintro ⟨p, e, a, b, c, d⟩
      have b : (s.fds ++ [(⟨f.fd, toEv f.mask, Ev.none⟩ : PFd)])[p]? = some e := b
      by_cases hp : p < s.fds.length
      · rw [List.getElem?_append_left hp] at b
        exact ⟨p, e, a, b, c, d⟩
      · rw [List.getElem?_append_right (by omega)] at b
        have := List.mem_of_getElem? b
        rw [List.mem_singleton] at this
        exact absurd (by rw [← c, this]) hg
    · rintro ⟨p, e, a, b, c, d⟩
      refine ⟨p, e, a, ?_, c, d⟩
      show (s.fds ++ [(⟨f.fd, toEv f.mask, Ev.none⟩ : PFd)])[p]? = some e
      rw [List.getElem?_append_left (List.getElem?_eq_some_iff.1 b).1]
      exact b
  | some q =>
    obtain ⟨e0, x0, h1, h2, h3⟩ := reg_of_idx h hi
    have hs : set s f = { s with fds := s.fds.modify q (fun e => ⟨e.fd, toEv f.mask, Ev.none⟩), ext := s.ext.set q ⟨f.data, f.tm⟩ } := by
      simp [set, hi]
    rw [hs]
    have gf : ∀ p : Nat, p ≠ q → (s.fds.modify q (fun e => ⟨e.fd, toEv f.mask, Ev.none⟩))[p]? = s.fds[p]? := by
      intro p hp
      rw [List.getElem?_modify]
      have : ¬ (q = p) := fun e => hp e.symm
      simp [this]
    constructor
    · rintro ⟨p, e, a, b, c, d⟩
      have b : (s.fds.modify q (fun e => ⟨e.fd, toEv f.mask, Ev.none⟩))[p]? = some e := b
      have hp : p ≠ q := by
        rintro rfl
        rw [List.getElem?_modify, h1] at b
        simp at b
        exact hg (by rw [← c, ← b, h3])
      rw [gf p hp] at b
      exact ⟨p, e, a, b, c, d⟩
    · rintro ⟨p, e, a, b, c, d⟩
      have hp : p ≠ q := by
        rintro rfl
        rw [h1] at b
        exact hg (by rw [← c, ← Option.some.inj b, h3])
      exact ⟨p, e, a, by show (s.fds.modify q _)[p]? = _; rw [gf p hp]; exact b, c, d⟩

/-- C145: switching the wake-ups on registers the reading end of the pipe for input, also when they were on. -/
theorem C145_enable (s : Sel) (h : WF s) (a b : Nat) :
    ∃ c, (enable s a b).cin = some c ∧ WF (enable s a b) ∧ (s.cin = none → c = a ∧ (enable s a b).cout = some b ∧ (enable s a b).pipe = 0) ∧
      Reg (enable s a b) c ⟨c, toEv ⟨true, false, false⟩, Ev.none⟩ ⟨0, none⟩ ∧
      ∀ g e x, g ≠ c → (Reg (enable s a b) g e x ↔ Reg s g e x) := by
  have keep : ∀ (t : Sel) (f : Info), (set t f).cin = t.cin ∧ (set t f).cout = t.cout ∧ (set t f).pipe = t.pipe := by
    intro t f
    unfold set
    split <;> exact ⟨rfl, rfl, rfl⟩
  have fresh : (enable s a b) = set { s with cin := some a, cout := some b, pend := none, pipe := 0 } ⟨a, ⟨true, false, false⟩, 0, none⟩ →
      ∃ c, (enable s a b).cin = some c ∧ WF (enable s a b) ∧ (s.cin = none → c = a ∧ (enable s a b).cout = some b ∧ (enable s a b).pipe = 0) ∧
      Reg (enable s a b) c ⟨c, toEv ⟨true, false, false⟩, Ev.none⟩ ⟨0, none⟩ ∧
      ∀ g e x, g ≠ c → (Reg (enable s a b) g e x ↔ Reg s g e x) := by
    intro he
    rw [he]
    obtain ⟨w, r⟩ := set_wf { s with cin := some a, cout := some b, pend := none, pipe := 0 } h ⟨a, ⟨true, false, false⟩, 0, none⟩
    obtain ⟨k1, k2, k3⟩ := keep { s with cin := some a, cout := some b, pend := none, pipe := 0 } ⟨a, ⟨true, false, false⟩, 0, none⟩
    refine ⟨a, k1, w, fun _ => ⟨rfl, k2, k3⟩, (r a _ _).2 (by simp), ?_⟩
    intro g e x hg
    rw [r, if_neg hg]
    exact Iff.rfl
  cases hc : s.cin with
  | none =>
    have := fresh (by simp only [enable, hc])
    rw [hc] at this
    exact this
  | some c =>
    cases hd : s.cout with
    | none =>
      have := fresh (by simp only [enable, hc, hd])
      rw [hc] at this
      exact this
    | some d =>
      have he : enable s a b = set s ⟨c, ⟨true, false, false⟩, 0, none⟩ := by simp only [enable, hc, hd]
      rw [he]
      obtain ⟨w, r⟩ := set_wf s h ⟨c, ⟨true, false, false⟩, 0, none⟩
      obtain ⟨k1, k2, k3⟩ := keep s ⟨c, ⟨true, false, false⟩, 0, none⟩
      refine ⟨c, by rw [k1]; exact hc, w, (by intro hh; cases hh), (r c _ _).2 (by simp), ?_⟩
      intro g e x hg
      rw [r, if_neg hg]

theorem start_wf : WF start := ⟨rfl, by intro g p; simp [start]⟩

/-- Three descriptors, the first one removed: the last one takes its place. -/
example : let m : Mask := ⟨true, false, false⟩
    let s := set (set (set start ⟨5, m, 50, none⟩) ⟨6, m, 60, none⟩) ⟨7, m, 70, some 3⟩
    (unset s 5).1 = 50 ∧ getData (unset s 5).2 7 = (70, true) ∧ isSet (unset s 5).2 5 = false ∧
    (unset s 5).2.fds.map (·.fd) = [7, 6] := by decide

/-- C145: the masks: what is asked is what can be told; a hang-up is told as input, a closed descriptor as everything. -/
theorem C145_masks (m : Mask) : toMask (toEv m) = m ∧
    (toEv m = Ev.none ↔ m = ⟨false, false, false⟩) ∧
    (∀ r : Ev, r.hup = false → r.nval = false →
      toMask (answer r (toEv m)) = ⟨r.inp && m.inp, r.out && m.out, r.pri && m.exc⟩) ∧
    (∀ r : Ev, r.nval = true → toMask (answer r (toEv m)) = ⟨true, true, true⟩) ∧
    ∀ r : Ev, r.hup = true → (toMask (answer r (toEv m))).inp = true := by
  obtain ⟨a, b, c⟩ := m
  refine ⟨by simp [toMask, toEv], by simp [toEv, Ev.none], ?_, ?_, ?_⟩
  · intro r h1 h2
    simp [toMask, answer, toEv, h1, h2]
  · intro r h1
    simp [toMask, answer, toEv, h1]
  · intro r h1
    simp [toMask, answer, toEv, h1]

/-! ### The answers of `poll` -/

theorem mark_length (now : Nat) : ∀ (es : List PFd) (xs : List Ext), (mark now es xs).length = es.length
  | [], _ => by simp [mark]
  | e :: es, [] => by simp [mark]
  | e :: es, x :: xs => by simp [mark, mark_length now es xs]

theorem mark_get (now : Nat) : ∀ (es : List PFd) (xs : List Ext) (p : Nat) (e : PFd) (x : Ext),
    es[p]? = some e → xs[p]? = some x →
    (mark now es xs)[p]? = some (if expired x.tm now || e.rev.err then { e with ev := Ev.none } else e)
  | e :: es, x :: xs, 0, e', x', h1, h2 => by
    simp only [List.getElem?_cons_zero, Option.some.injEq] at h1 h2
    subst h1; subst h2
    simp [mark]
  | e :: es, x :: xs, p + 1, e', x', h1, h2 => by
    simp only [List.getElem?_cons_succ] at h1 h2
    simp only [mark, List.getElem?_cons_succ]
    exact mark_get now es xs p e' x' h1 h2
  | [], _, p, e', x', h1, _ => by simp at h1
  | _ :: _, [], p, e', x', _, h2 => by simp at h2

/-- What a descriptor is after an answer of `poll`. -/
def after (p : Poll) (e : PFd) (x : Ext) : PFd :=
  ⟨e.fd, if expired x.tm p.now || (p.ready e.fd).err then Ev.none else e.ev, answer (p.ready e.fd) e.ev⟩

theorem doPoll_get (p : Poll) (s : Sel) (q : Nat) (e : PFd) (x : Ext)
    (he : s.fds[q]? = some e) (hx : s.ext[q]? = some x) :
    (doPoll p s).fds[q]? = some (after p e x) := by
  have h1 : (s.fds.map (fun e => { e with rev := answer (p.ready e.fd) e.ev }))[q]? =
      some { e with rev := answer (p.ready e.fd) e.ev } := by
    rw [List.getElem?_map, he]; rfl
  have := mark_get p.now _ s.ext q _ x h1 hx
  simp only [doPoll]
  rw [this]
  simp only [after, answer]
  by_cases hc : (expired x.tm p.now || (p.ready e.fd).err) = true <;> simp [hc]

theorem doPoll_length (p : Poll) (s : Sel) : (doPoll p s).fds.length = s.fds.length := by
  simp [doPoll, mark_length]

theorem doPoll_back (p : Poll) (s : Sel) (h : WF s) (q : Nat) (e' : PFd)
    (he : (doPoll p s).fds[q]? = some e') :
    ∃ e x, s.fds[q]? = some e ∧ s.ext[q]? = some x ∧ e' = after p e x := by
  have hq : q < s.fds.length := by
    rw [← doPoll_length p s]; exact (List.getElem?_eq_some_iff.1 he).1
  have h1 : s.fds[q]? = some s.fds[q] := List.getElem?_eq_getElem hq
  obtain ⟨x, hx⟩ := ext_of h h1
  have := doPoll_get p s q _ x h1 hx
  rw [he] at this
  exact ⟨_, x, h1, hx, Option.some.inj this⟩

/-- C145: an answer of `poll` keeps what is registered; a descriptor has something to tell
exactly when it was asked for what happened, or has an error, or its time is over, or it
waits for nothing. -/
theorem C145_poll (p : Poll) (s : Sel) (h : WF s) :
    WF (doPoll p s) ∧
    (∀ g e' x, Reg (doPoll p s) g e' x ↔ ∃ e, Reg s g e x ∧ e' = after p e x) ∧
    (∀ g, Unseen (doPoll p s) g ↔ ∃ e x, Reg s g e x ∧
      (answer (p.ready g) e.ev ≠ Ev.none ∨ (∃ t, x.tm = some t ∧ t < p.now) ∨ e.ev = Ev.none)) := by
  have hxp : ∀ x : Ext, (∃ t, x.tm = some t ∧ t < p.now) ↔ expired x.tm p.now = true := by
    intro x
    cases ht : x.tm <;> simp [expired]
  simp only [hxp]
  have hext : (doPoll p s).ext = s.ext := rfl
  refine ⟨⟨by rw [doPoll_length, hext]; exact h.1, ?_⟩, ?_, ?_⟩
  · intro g q
    show s.idx g = some q ↔ _
    rw [h.2 g q]
    constructor
    · rintro ⟨e, he, hf⟩
      obtain ⟨x, hx⟩ := ext_of h he
      exact ⟨_, doPoll_get p s q e x he hx, hf⟩
    · rintro ⟨e', he, hf⟩
      obtain ⟨e, x, h1, h2, h3⟩ := doPoll_back p s h q e' he
      exact ⟨e, h1, by rw [h3] at hf; exact hf⟩
  · intro g e' x
    constructor
    · rintro ⟨q, a, b, c⟩
      obtain ⟨e, x', h1, h2, h3⟩ := doPoll_back p s h q e' a
      rw [hext, h2] at b
      have := Option.some.inj b
      subst this
      exact ⟨e, ⟨q, h1, h2, by rw [h3] at c; exact c⟩, h3⟩
    · rintro ⟨e, ⟨q, a, b, c⟩, rfl⟩
      exact ⟨q, doPoll_get p s q e x a b, b, c⟩
  · intro g
    have sig : ∀ e x, signaled (after p e x) = true ↔
        (answer (p.ready e.fd) e.ev ≠ Ev.none ∨ expired x.tm p.now = true ∨ e.ev = Ev.none) := by
      intro e x
      simp only [signaled, after, Bool.or_eq_true, bne_iff_ne, beq_iff_eq]
      constructor
      · rintro (h1 | h1)
        · exact Or.inl h1
        · by_cases hx : expired x.tm p.now = true
          · exact Or.inr (Or.inl hx)
          · by_cases hr : (p.ready e.fd).err = true
            · exact Or.inl (by intro h0; have := congrArg Ev.err h0; simp [answer, Ev.none, hr] at this)
            · rw [if_neg (by rintro (h2 | h2) <;> contradiction)] at h1
              exact Or.inr (Or.inr h1)
      · rintro (h1 | h1 | h1)
        · exact Or.inl h1
        · exact Or.inr (by rw [if_pos (Or.inl h1)])
        · refine Or.inr ?_
          by_cases hc : expired x.tm p.now = true ∨ (p.ready e.fd).err = true
          · rw [if_pos hc]
          · rw [if_neg hc]; exact h1
    constructor
    · rintro ⟨q, e', _, a, b, c⟩
      obtain ⟨e, x, h1, h2, h3⟩ := doPoll_back p s h q e' a
      subst h3
      refine ⟨e, x, ⟨q, h1, h2, b⟩, ?_⟩
      have hb : e.fd = g := b
      rw [← hb]
      exact (sig e x).1 c
    · rintro ⟨e, x, ⟨q, a, b, c⟩, hs⟩
      rw [← c] at hs
      exact ⟨q, _, Nat.zero_le _, doPoll_get p s q e x a b, c, (sig e x).2 hs⟩

/-! ### The next descriptor -/

theorem seek_spec : ∀ (fds : List PFd) (c : Nat),
    c ≤ seek fds c ∧ (∀ p e, c ≤ p → p < seek fds c → fds[p]? = some e → signaled e = false) ∧
    (seek fds c < fds.length → ∃ e, fds[seek fds c]? = some e ∧ signaled e = true) := by
  intro fds c
  refine ⟨Nat.le_add_right _ _, ?_, ?_⟩
  · intro p e h1 h2 h3
    have h4 : p - c < ((fds.drop c).takeWhile (fun e => !signaled e)).length := by
      simp only [seek] at h2; omega
    have h5 : (fds.drop c)[p - c]? = some e := by
      rw [List.getElem?_drop]
      have : c + (p - c) = p := by omega
      rw [this]; exact h3
    have h6 : ((fds.drop c).takeWhile (fun e => !signaled e))[p - c]? = some e := by
      have hpre := List.takeWhile_prefix (l := fds.drop c) (fun e => !signaled e)
      obtain ⟨t, ht⟩ := hpre
      rw [← ht, List.getElem?_append_left h4] at h5
      exact h5
    have := List.mem_of_getElem? h6
    have := List.all_eq_true.1 (List.all_takeWhile (p := fun e => !signaled e) (l := fds.drop c)) e this
    simpa using this
  · intro hlt
    have hd : (fds.drop c).dropWhile (fun e => !signaled e) ≠ [] := by
      intro h0
      have ha := List.takeWhile_append_dropWhile (p := fun e => !signaled e) (l := fds.drop c)
      rw [h0, List.append_nil] at ha
      have : ((fds.drop c).takeWhile (fun e => !signaled e)).length = (fds.drop c).length := by rw [ha]
      simp only [seek, this, List.length_drop] at hlt
      omega
    cases hc : (fds.drop c).dropWhile (fun e => !signaled e) with
    | nil => exact absurd hc hd
    | cons e r =>
      refine ⟨e, ?_, ?_⟩
      · have ha := List.takeWhile_append_dropWhile (p := fun e => !signaled e) (l := fds.drop c)
        rw [hc] at ha
        have : (fds.drop c)[((fds.drop c).takeWhile (fun e => !signaled e)).length]? = some e := by
          conv => lhs; rw [← ha]
          rw [List.getElem?_append_right (by rw [ha]; exact Nat.le_refl _)]
          simp [ha]
        rw [List.getElem?_drop] at this
        exact this
      · have := List.head?_dropWhile_not (fun e => !signaled e) (fds.drop c)
        rw [hc] at this
        simpa using this

theorem seek_unseen (s : Sel) : seek s.fds s.cur < s.fds.length ↔ ∃ g, Unseen s g := by
  obtain ⟨h1, h2, h3⟩ := seek_spec s.fds s.cur
  constructor
  · intro hlt
    obtain ⟨e, he, hs⟩ := h3 hlt
    exact ⟨e.fd, _, e, h1, he, rfl, hs⟩
  · rintro ⟨g, p, e, hp, he, _, hs⟩
    have hpl : p < s.fds.length := (List.getElem?_eq_some_iff.1 he).1
    apply Nat.lt_of_le_of_lt _ hpl
    apply Nat.le_of_not_lt
    intro hlt
    have := h2 p e hp hlt he
    rw [hs] at this
    cases this

/-- C145: without descriptors the call fails, it does not wait. -/
theorem C145_empty (s : Sel) (h : ¬ ∃ g e x, Reg s g e x) (hw : WF s) (hp : s.pend = none) (ps : List Poll) :
    getNext ps s = .noItems s := by
  have hf : s.fds = [] := by
    cases hf : s.fds with
    | nil => rfl
    | cons e r =>
      have he : s.fds[0]? = some e := by rw [hf]; rfl
      obtain ⟨x, hx⟩ := ext_of hw he
      exact absurd ⟨e.fd, e, x, 0, he, hx, rfl⟩ h
  simp [getNext, peek, hp, hf]

/-- Nothing to tell: the next answer of `poll` is used, and without one the call waits. -/
theorem C145_waits (s : Sel) (hp : s.pend = none) (hn : ¬ ∃ g, Unseen s g) (hf : s.fds ≠ []) (p : Poll) (ps : List Poll) :
    (∃ s', getNext [] s = .waits s') ∧ getNext (p :: ps) s = getNext ps (doPoll p s) := by
  have hs : ¬ seek s.fds s.cur < s.fds.length := fun h => hn ((seek_unseen s).1 h)
  have he : s.fds.isEmpty = false := by cases h : s.fds with
    | nil => exact absurd h hf
    | cons a b => rfl
  have hd : (doPoll p s).fds.isEmpty = false := by
    have hl := doPoll_length p s
    cases h : (doPoll p s).fds with
    | nil =>
      rw [h] at hl
      exact absurd (List.length_eq_zero_iff.1 hl.symm) hf
    | cons a b => rfl
  have hd2 : (doPoll p s).pend = none := hp
  have e1 : doPoll p { s with cur := seek s.fds s.cur } = doPoll p s := rfl
  constructor
  · refine ⟨{ s with cur := seek s.fds s.cur }, ?_⟩
    simp only [getNext, peek, hp, Option.isSome_none, Bool.false_eq_true, if_false, he, find, if_neg hs]
  · simp only [getNext, peek, hp, Option.isSome_none, Bool.false_eq_true, if_false, he, hd, hd2]
    have : find (p :: ps) s = find ps (doPoll p s) := by
      simp only [find, if_neg hs]
      rw [e1]
    rw [this]

theorem find_here (ps : List Poll) (s : Sel) (h : seek s.fds s.cur < s.fds.length) :
    find ps s = .ok ({ s with cur := seek s.fds s.cur }, ps) := by
  cases ps <;> simp only [find, if_pos h]

theorem next_aux (s : Sel) (h : WF s) (hp : s.pend = none) (hu : ∃ g, Unseen s g)
    (hc : ∀ c, s.cin = some c → ¬ Unseen s c) (ps : List Poll) :
    ∃ e x s', getNext ps s = .info ⟨e.fd, toMask e.rev, x.data, x.tm⟩ s' ps ∧
      (s'.pend = none ∧ s'.cin = s.cin ∧ s'.fds.length = s.fds.length ∧ s.cur < s'.cur ∧ s.cur < s.fds.length) ∧
      Reg s e.fd e x ∧ Unseen s e.fd ∧ WF s' ∧
      (∀ g, Unseen s' g ↔ Unseen s g ∧ g ≠ e.fd) ∧
      (∀ g e' x', Reg s' g e' x' ↔
        if g = e.fd then e' = { e with rev := Ev.none } ∧ x' = x else Reg s g e' x') := by
  obtain ⟨h1, h2, h3⟩ := seek_spec s.fds s.cur
  have hlt := (seek_unseen s).2 hu
  obtain ⟨e, he, hs⟩ := h3 hlt
  obtain ⟨x, hx⟩ := ext_of h he
  have hun : Unseen s e.fd := ⟨_, e, h1, he, rfl, hs⟩
  have hemp : s.fds.isEmpty = false := by
    cases hf : s.fds with
    | nil => rw [hf] at hlt; exact absurd hlt (Nat.not_lt_zero _)
    | cons a b => rfl
  have hcin : ¬ (some e.fd = s.cin) := fun hh => hc e.fd hh.symm hun
  have gf : ∀ p : Nat, (s.fds.modify (seek s.fds s.cur) (fun e => { e with rev := Ev.none }))[p]? =
      if p = seek s.fds s.cur then some { e with rev := Ev.none } else s.fds[p]? := by
    intro p
    rw [List.getElem?_modify]
    by_cases hpq : p = seek s.fds s.cur
    · rw [if_pos hpq, hpq, he]; simp
    · rw [if_neg hpq]
      have : ¬ (seek s.fds s.cur = p) := fun e => hpq e.symm
      simp [this]
  refine ⟨e, x, { s with fds := s.fds.modify (seek s.fds s.cur) (fun e => { e with rev := Ev.none }), cur := seek s.fds s.cur + 1 }, ?_, ⟨hp, rfl, by simp, Nat.lt_succ_of_le h1, Nat.lt_of_le_of_lt h1 hlt⟩, ⟨_, he, hx, rfl⟩, hun, ?_, ?_, ?_⟩
  · have hpk : peek ps s = .info ⟨e.fd, toMask e.rev, x.data, x.tm⟩ { s with cur := seek s.fds s.cur } ps := by
      simp only [peek, hp, Option.isSome_none, Bool.false_eq_true, if_false, hemp, find_here ps s hlt, he, hx]
    simp only [getNext, hpk, if_pos hlt]
    have : (decide (some e.fd = s.cin) && toMask e.rev != ⟨false, false, false⟩) = false := by
      simp [hcin]
    simp only [this, Bool.false_eq_true, if_false]
  · refine ⟨by simp [h.1], ?_⟩
    intro g p
    show s.idx g = some p ↔ _
    simp only [gf]
    rw [h.2 g p]
    by_cases hpq : p = seek s.fds s.cur
    · rw [if_pos hpq, hpq, he]
      constructor
      · rintro ⟨e', a, b⟩
        have := Option.some.inj a
        exact ⟨_, rfl, by rw [← b, ← this]⟩
      · rintro ⟨e', a, b⟩
        have := Option.some.inj a
        refine ⟨e, rfl, ?_⟩
        rw [← b, ← this]
    · rw [if_neg hpq]
  · intro g
    constructor
    · rintro ⟨p, e', a, b, c, d⟩
      have hne : p ≠ seek s.fds s.cur := by
        have : seek s.fds s.cur + 1 ≤ p := a
        omega
      have b' : s.fds[p]? = some e' := by
        have := b
        simp only [gf, if_neg hne] at this
        exact this
      refine ⟨⟨p, e', ?_, b', c, d⟩, ?_⟩
      · have : seek s.fds s.cur + 1 ≤ p := a
        omega
      · intro hg
        exact hne (place_eq h b' he (by rw [c, hg]))
    · rintro ⟨⟨p, e', a, b, c, d⟩, hg⟩
      have hne : p ≠ seek s.fds s.cur := by
        rintro rfl
        rw [he] at b
        exact hg (by rw [← c, ← Option.some.inj b])
      refine ⟨p, e', ?_, by simp only [gf, if_neg hne]; exact b, c, d⟩
      show seek s.fds s.cur + 1 ≤ p
      have : ¬ p < seek s.fds s.cur := by
        intro hh
        have := h2 p e' a hh b
        rw [d] at this; cases this
      omega
  · intro g e' x'
    constructor
    · rintro ⟨p, a, b, c⟩
      simp only [gf] at a
      by_cases hpq : p = seek s.fds s.cur
      · rw [if_pos hpq] at a
        have ea := Option.some.inj a
        have hg : g = e.fd := by rw [← c, ← ea]
        rw [if_pos hg]
        refine ⟨ea.symm, ?_⟩
        rw [hpq, hx] at b
        exact (Option.some.inj b).symm
      · rw [if_neg hpq] at a
        have hg : g ≠ e.fd := by
          intro hg
          exact hpq (place_eq h a he (by rw [c, hg]))
        rw [if_neg hg]
        exact ⟨p, a, b, c⟩
    · intro hr
      by_cases hg : g = e.fd
      · rw [if_pos hg] at hr
        obtain ⟨rfl, rfl⟩ := hr
        exact ⟨_, by simp only [gf, if_true], hx, hg.symm⟩
      · rw [if_neg hg] at hr
        obtain ⟨p, a, b, c⟩ := hr
        have hpq : p ≠ seek s.fds s.cur := by
          rintro rfl
          rw [he] at a
          exact hg (by rw [← c, ← Option.some.inj a])
        exact ⟨p, by simp only [gf, if_neg hpq]; exact a, b, c⟩

/-- C145: without a wake-up, the next call tells of a descriptor that has something to tell: its
own data and time, and what happened to it. It is then told; all the others still have what
they had to tell, and nothing else is changed. -/
theorem C145_next_partial (s : Sel) (h : WF s) (hp : s.pend = none) (hu : ∃ g, Unseen s g)
    (hc : ∀ c, s.cin = some c → ¬ Unseen s c) (ps : List Poll) :
    ∃ e x s', getNext ps s = .info ⟨e.fd, toMask e.rev, x.data, x.tm⟩ s' ps ∧
      Reg s e.fd e x ∧ Unseen s e.fd ∧ WF s' ∧
      (∀ g, Unseen s' g ↔ Unseen s g ∧ g ≠ e.fd) ∧
      (∀ g e' x', Reg s' g e' x' ↔
        if g = e.fd then e' = { e with rev := Ev.none } ∧ x' = x else Reg s g e' x') := by
  obtain ⟨e, x, s', a, _, b⟩ := next_aux s h hp hu hc ps
  exact ⟨e, x, s', a, b⟩

/-- Calls of `getNext` without an answer of `poll`, until one would wait: what they tell. -/
def drain : Nat → Sel → List Info × Sel
  | 0, s => ([], s)
  | n + 1, s =>
    match getNext [] s with
    | .info i s' _ => (i :: (drain n s').1, (drain n s').2)
    | _ => ([], s)

/-- C145: until a call waits again, every descriptor that has something to tell is told once,
with its own data and what happened to it, and no other one is told. -/
theorem C145_all_partial (n : Nat) (s : Sel) (h : WF s) (hp : s.pend = none) (hf : s.fds ≠ [])
    (hc : ∀ c, s.cin = some c → ¬ Unseen s c) (hn : s.fds.length - s.cur < n) :
    ((drain n s).1.map (·.fd)).Nodup ∧
    (∀ i, i ∈ (drain n s).1 → Unseen s i.fd ∧
      ∃ e x, Reg s i.fd e x ∧ i = ⟨e.fd, toMask e.rev, x.data, x.tm⟩) ∧
    (∀ g, Unseen s g → ∃ i ∈ (drain n s).1, i.fd = g) ∧
    (∃ s', getNext [] (drain n s).2 = .waits s') ∧ WF (drain n s).2 := by
  induction n generalizing s with
  | zero => omega
  | succ n ih =>
    by_cases hu : ∃ g, Unseen s g
    · obtain ⟨e, x, s', a, ⟨k1, k2, k3, k4, k5⟩, b1, b2, b3, b4, b5⟩ := next_aux s h hp hu hc []
      have hd : drain (n + 1) s = (⟨e.fd, toMask e.rev, x.data, x.tm⟩ :: (drain n s').1, (drain n s').2) := by
        simp only [drain, a]
      have hf' : s'.fds ≠ [] := by
        intro h0
        rw [h0] at k3
        exact hf (List.length_eq_zero_iff.1 k3.symm)
      obtain ⟨i1, i2, i3, i4, i5⟩ := ih s' b3 k1 hf'
        (fun c hcc hun => hc c (by rw [← k2]; exact hcc) ((b4 c).1 hun).1) (by rw [k3]; omega)
      rw [hd]
      refine ⟨?_, ?_, ?_, i4, i5⟩
      · rw [List.map_cons, List.nodup_cons]
        refine ⟨?_, i1⟩
        intro hm
        obtain ⟨i, hi, hie⟩ := List.mem_map.1 hm
        exact ((b4 _).1 (i2 i hi).1).2 hie
      · intro i hi
        rcases List.mem_cons.1 hi with rfl | hi
        · exact ⟨b2, e, x, b1, rfl⟩
        · obtain ⟨j1, e', x', j2, j3⟩ := i2 i hi
          obtain ⟨j4, j5⟩ := (b4 _).1 j1
          rw [b5, if_neg j5] at j2
          exact ⟨j4, e', x', j2, j3⟩
      · intro g hg
        by_cases hge : g = e.fd
        · exact ⟨_, List.mem_cons_self, hge.symm⟩
        · obtain ⟨i, hi, hie⟩ := i3 g ((b4 g).2 ⟨hg, hge⟩)
          exact ⟨i, List.mem_cons_of_mem _ hi, hie⟩
    · obtain ⟨s', hw⟩ := (C145_waits s hp hu hf ⟨fun _ => Ev.none, 0⟩ []).1
      have hd : drain (n + 1) s = ([], s) := by simp only [drain, hw]
      rw [hd]
      refine ⟨List.nodup_nil, ?_, ?_, ⟨s', hw⟩, h⟩
      · intro i hi; cases hi
      · intro g hg; exact absurd ⟨g, hg⟩ hu

def rd : Ev := ⟨true, false, false, false, false, false⟩
def hu : Ev := ⟨false, false, false, false, true, false⟩
def mi : Mask := ⟨true, false, false⟩
def three : Sel := set (set (set start ⟨5, mi, 50, none⟩) ⟨6, mi, 60, some 100⟩) ⟨7, mi, 70, none⟩

/-- Input on 5, a hang-up of 7 and the end of the time of 6: three are told, then the call waits. -/
example : (drain 9 (doPoll ⟨fun g => if g = 5 then rd else if g = 7 then hu else Ev.none, 101⟩ three)).1 =
    [⟨5, mi, 50, none⟩, ⟨6, ⟨false, false, false⟩, 60, some 100⟩, ⟨7, mi, 70, none⟩] := by decide +kernel

/-- C145: `dropAll` gives every descriptor something to tell, and keeps all the data. -/
theorem C145_drop (s : Sel) (h : WF s) :
    WF (dropAll s) ∧ (∀ g, Unseen (dropAll s) g ↔ ∃ e x, Reg s g e x) ∧
    (∀ g e' x, Reg (dropAll s) g e' x ↔ ∃ e, Reg s g e x ∧ e' = { e with ev := Ev.none }) := by
  have gf : ∀ q : Nat, (dropAll s).fds[q]? = (s.fds[q]?).map (fun e => { e with ev := Ev.none }) := by
    intro q
    simp [dropAll]
  refine ⟨⟨by simp [dropAll, h.1], ?_⟩, ?_, ?_⟩
  · intro g q
    show s.idx g = some q ↔ _
    rw [h.2 g q, gf]
    constructor
    · rintro ⟨e, he, hf⟩; exact ⟨{ e with ev := Ev.none }, by rw [he]; rfl, hf⟩
    · rintro ⟨e', he, hf⟩
      obtain ⟨e, h1, rfl⟩ := Option.map_eq_some_iff.1 he
      exact ⟨e, h1, hf⟩
  · intro g
    constructor
    · rintro ⟨q, e', _, a, b, _⟩
      rw [gf] at a
      obtain ⟨e, h1, rfl⟩ := Option.map_eq_some_iff.1 a
      obtain ⟨x, hx⟩ := ext_of h h1
      exact ⟨e, x, q, h1, hx, b⟩
    · rintro ⟨e, x, q, a, b, c⟩
      exact ⟨q, { e with ev := Ev.none }, Nat.zero_le _, by rw [gf, a]; rfl, c, by simp [signaled]⟩
  · intro g e' x
    constructor
    · rintro ⟨q, a, b, c⟩
      rw [gf] at a
      obtain ⟨e, h1, rfl⟩ := Option.map_eq_some_iff.1 a
      exact ⟨e, ⟨q, h1, b, c⟩, rfl⟩
    · rintro ⟨e, ⟨q, a, b, c⟩, rfl⟩
      exact ⟨q, by rw [gf, a]; rfl, b, c⟩

example : (drain 9 (dropAll three)).1.map (·.data) = [50, 60, 70] := by decide +kernel

/-! ### The time of waiting -/

theorem minTm_spec (now : Nat) : ∀ (l : List Ext) (m : Option Nat),
    (minTm now l m = none ↔ m = none ∧ ∀ x ∈ l, x.tm = none) ∧
    (∀ k, minTm now l m = some k →
      (∀ j, m = some j → k ≤ j) ∧ (∀ x ∈ l, ∀ t, x.tm = some t → k ≤ remain t now) ∧
      (m = some k ∨ ∃ x ∈ l, ∃ t, x.tm = some t ∧ k = remain t now)) := by
  intro l
  induction l with
  | nil =>
    intro m
    refine ⟨by simp [minTm], ?_⟩
    intro k hk
    have hk : m = some k := hk
    refine ⟨?_, ?_, Or.inl hk⟩
    · intro j hj; rw [hk] at hj; have := Option.some.inj hj; omega
    · intro x hx; cases hx
  | cons x r ih =>
    intro m
    cases hx : x.tm with
    | none =>
      have he : minTm now (x :: r) m = minTm now r m := by simp only [minTm, hx]
      rw [he]
      obtain ⟨h1, h2⟩ := ih m
      refine ⟨?_, ?_⟩
      · rw [h1]; simp [hx]
      · intro k hk
        obtain ⟨a, b, c⟩ := h2 k hk
        refine ⟨a, ?_, ?_⟩
        · intro y hy t ht
          rcases List.mem_cons.1 hy with rfl | hy
          · rw [hx] at ht; cases ht
          · exact b y hy t ht
        · rcases c with c | ⟨y, hy, c⟩
          · exact Or.inl c
          · exact Or.inr ⟨y, List.mem_cons_of_mem _ hy, c⟩
    | some t =>
      have key : ∃ j, minTm now (x :: r) m = minTm now r (some j) ∧ j ≤ remain t now ∧
          (∀ i, m = some i → j ≤ i) ∧ (j = remain t now ∨ m = some j) := by
        cases m with
        | none =>
          refine ⟨remain t now, by simp only [minTm, hx], Nat.le_refl _, ?_, Or.inl rfl⟩
          intro i hi; cases hi
        | some i =>
          by_cases hlt : remain t now < i
          · refine ⟨remain t now, by simp only [minTm, hx, if_pos hlt], Nat.le_refl _, ?_, Or.inl rfl⟩
            intro i' hi; have := Option.some.inj hi; omega
          · refine ⟨i, by simp only [minTm, hx, if_neg hlt], by omega, ?_, Or.inr rfl⟩
            intro i' hi; have := Option.some.inj hi; omega
      obtain ⟨j, e, h1, h2, h3⟩ := key
      rw [e]
      obtain ⟨i1, i2⟩ := ih (some j)
      refine ⟨?_, ?_⟩
      · rw [i1]
        constructor
        · rintro ⟨a, _⟩; cases a
        · rintro ⟨_, a⟩
          have := a x List.mem_cons_self
          rw [hx] at this; cases this
      · intro k hk
        obtain ⟨a, b, c⟩ := i2 k hk
        have kj := a j rfl
        refine ⟨?_, ?_, ?_⟩
        · intro i hi; exact Nat.le_trans kj (h2 i hi)
        · intro y hy u hu
          rcases List.mem_cons.1 hy with rfl | hy
          · rw [hx] at hu
            rw [← Option.some.inj hu]
            exact Nat.le_trans kj h1
          · exact b y hy u hu
        · rcases c with c | ⟨y, hy, c⟩
          · have := Option.some.inj c
            subst this
            rcases h3 with h3 | h3
            · exact Or.inr ⟨x, List.mem_cons_self, t, hx, h3⟩
            · exact Or.inl h3
          · exact Or.inr ⟨y, List.mem_cons_of_mem _ hy, c⟩

/-- C145: `poll` may wait for ever only when nobody gave a time; otherwise until the first of the
times, of the descriptors and of the caller. The caller's is told only when it is before all the others. -/
theorem C145_time (s : Sel) (now : Nat) (tm : Option Nat) :
    ((waitTm s now tm).1 = none ↔ tm = none ∧ ∀ x ∈ s.ext, x.tm = none) ∧
    (∀ k, (waitTm s now tm).1 = some k →
      (∀ t, tm = some t → k ≤ t - now) ∧ (∀ x ∈ s.ext, ∀ t, x.tm = some t → k ≤ t - now) ∧
      ((∃ t, tm = some t ∧ k = t - now) ∨ ∃ x ∈ s.ext, ∃ t, x.tm = some t ∧ k = t - now)) ∧
    ((waitTm s now tm).2 = true ↔
      ∃ t, tm = some t ∧ ∀ x ∈ s.ext, ∀ u, x.tm = some u → t - now < u - now) := by
  obtain ⟨h1, h2⟩ := minTm_spec now s.ext none
  cases tm with
  | none =>
    have e : waitTm s now none = (minTm now s.ext none, false) := rfl
    rw [e]
    refine ⟨h1, ?_, by simp⟩
    intro k hk
    obtain ⟨_, b, c⟩ := h2 k hk
    refine ⟨(by intro t ht; cases ht), b, ?_⟩
    rcases c with c | c
    · cases c
    · exact Or.inr c
  | some t =>
    cases hm : minTm now s.ext none with
    | none =>
      have e : waitTm s now (some t) = (some (t - now), true) := by simp only [waitTm, hm, remain]
      have hall := (h1.1 hm).2
      rw [e]
      refine ⟨by simp, ?_, ?_⟩
      · intro k hk
        have := Option.some.inj hk
        subst this
        refine ⟨?_, ?_, Or.inl ⟨t, rfl, rfl⟩⟩
        · intro u hu; rw [← Option.some.inj hu]; exact Nat.le_refl _
        · intro x hx u hu; rw [hall x hx] at hu; cases hu
      · refine ⟨fun _ => ⟨t, rfl, ?_⟩, fun _ => rfl⟩
        intro x hx u hu; rw [hall x hx] at hu; cases hu
    | some k =>
      obtain ⟨_, b, c⟩ := h2 k hm
      have c : ∃ x ∈ s.ext, ∃ t, x.tm = some t ∧ k = remain t now := by
        rcases c with c | c
        · cases c
        · exact c
      by_cases hlt : remain t now < k
      · have e : waitTm s now (some t) = (some (t - now), true) := by
          simp only [waitTm, hm, if_pos hlt]; rfl
        rw [e]
        refine ⟨by simp, ?_, ?_⟩
        · intro k' hk
          have := Option.some.inj hk
          subst this
          refine ⟨?_, ?_, Or.inl ⟨t, rfl, rfl⟩⟩
          · intro u hu; rw [← Option.some.inj hu]; exact Nat.le_refl _
          · intro x hx u hu
            exact Nat.le_of_lt (Nat.lt_of_lt_of_le hlt (b x hx u hu))
        · refine ⟨fun _ => ⟨t, rfl, ?_⟩, fun _ => rfl⟩
          intro x hx u hu
          exact Nat.lt_of_lt_of_le hlt (b x hx u hu)
      · have e : waitTm s now (some t) = (some k, false) := by
          simp only [waitTm, hm, if_neg hlt]
        rw [e]
        refine ⟨by simp, ?_, ?_⟩
        · intro k' hk
          have := Option.some.inj hk
          subst this
          refine ⟨?_, b, Or.inr c⟩
          intro u hu; rw [← Option.some.inj hu]; exact Nat.le_of_not_lt hlt
        · constructor
          · intro hh; cases hh
          · rintro ⟨u, hu, hall⟩
            obtain ⟨x, hx, v, hv, hk⟩ := c
            have := hall x hx v hv
            rw [← Option.some.inj hu] at this
            exact absurd (by rw [hk]; exact this) hlt

example : waitTm three 90 (some 95) = (some 5, true) ∧ waitTm three 90 (some 100) = (some 10, false) ∧
    waitTm three 90 none = (some 10, false) := by decide +kernel

/-- C145: `waitForEvent` asks `poll` only when nobody has something to tell; it is true exactly when
then nothing happened and the time of the caller was before all the others. -/
theorem C145_event (p : Poll) (now : Nat) (tm : Option Nat) (s : Sel) :
    ((∃ g, Unseen s g) → (waitForEvent p now tm s).1 = false ∧
      (∀ g, Unseen (waitForEvent p now tm s).2 g ↔ Unseen s g) ∧
      ∀ g e x, Reg (waitForEvent p now tm s).2 g e x ↔ Reg s g e x) ∧
    ((¬ ∃ g, Unseen s g) → (waitForEvent p now tm s).2 = doPoll p s ∧
      ((waitForEvent p now tm s).1 = true ↔
        (∀ e ∈ s.fds, answer (p.ready e.fd) e.ev = Ev.none) ∧
        ∃ t, tm = some t ∧ ∀ x ∈ s.ext, ∀ u, x.tm = some u → t - now < u - now)) := by
  obtain ⟨h1, h2, h3⟩ := seek_spec s.fds s.cur
  constructor
  · intro hu
    have hlt := (seek_unseen s).2 hu
    have e : waitForEvent p now tm s = (false, { s with cur := seek s.fds s.cur }) := by
      simp only [waitForEvent, if_pos hlt]
    rw [e]
    refine ⟨rfl, ?_, fun g e x => Iff.rfl⟩
    intro g
    constructor
    · rintro ⟨q, e', a, b⟩
      exact ⟨q, e', Nat.le_trans h1 a, b⟩
    · rintro ⟨q, e', a, b, c, d⟩
      refine ⟨q, e', ?_, b, c, d⟩
      apply Nat.le_of_not_lt
      intro hq
      have := h2 q e' a hq b
      rw [d] at this; cases this
  · intro hn
    have hlt : ¬ seek s.fds s.cur < s.fds.length := fun hh => hn ((seek_unseen s).1 hh)
    have e : waitForEvent p now tm s =
        (pollTimedOut p s (waitTm s now tm).2, doPoll p s) := by
      simp only [waitForEvent, if_neg hlt]; rfl
    rw [e]
    refine ⟨rfl, ?_⟩
    rw [← (C145_time s now tm).2.2]
    simp [pollTimedOut]

example : (waitForEvent ⟨fun _ => Ev.none, 96⟩ 90 (some 95) three).1 = true ∧
    (waitForEvent ⟨fun g => if g = 7 then rd else Ev.none, 91⟩ 90 (some 95) three).1 = false ∧
    (waitForEvent ⟨fun _ => Ev.none, 101⟩ 90 (some 105) three).1 = false := by
  refine ⟨by decide +kernel, by decide +kernel, by decide +kernel⟩

/-! ### Waking up -/

/-- C145: a wake-up while the other side waits: `poll` tells the pipe; the next call tells the wake-up
with its reason, the byte is read from the pipe again, and nothing of the others is lost. It is only so when the
place of the search is the one of the pipe. -/
theorem C145_wake_partial (s : Sel) (h : WF s) (c d r : Nat) (hp : s.pend = none) (hi : s.cin = some c)
    (ho : s.cout = some d) (e : PFd) (he : s.fds[s.cur]? = some e) (hf : e.fd = c) (ps : List Poll) :
    ∃ i s', getNext ps (wakeUp s r) = .info i s' ps ∧ isWakeUp s' i = some r ∧
      s'.pend = none ∧ s'.pipe = s.pipe ∧ WF s' ∧
      (∀ g, g ≠ c → (Unseen s' g ↔ Unseen s g)) ∧
      (∀ g e' x', g ≠ c → (Reg s' g e' x' ↔ Reg s g e' x')) := by
  have hlt : s.cur < s.fds.length := (List.getElem?_eq_some_iff.1 he).1
  have gf : ∀ p : Nat, (s.fds.modify s.cur (fun e => { e with rev := Ev.none }))[p]? =
      if p = s.cur then some { e with rev := Ev.none } else s.fds[p]? := by
    intro p
    rw [List.getElem?_modify]
    by_cases hpq : p = s.cur
    · rw [if_pos hpq, hpq, he]; simp
    · rw [if_neg hpq]
      have : ¬ (s.cur = p) := fun e => hpq e.symm
      simp [this]
  refine ⟨⟨c, ⟨true, false, false⟩, 0, some 0⟩, { s with fds := s.fds.modify s.cur (fun e => { e with rev := Ev.none }), cur := s.cur + 1, reason := r, pend := none }, ?_, ?_, rfl, rfl, ?_, ?_, ?_⟩
  · simp [getNext, peek, wakeUp, hp, hi, ho, hlt]
  · simp [isWakeUp, hi]
  · refine ⟨by simp [h.1], ?_⟩
    intro g p
    show s.idx g = some p ↔ _
    simp only [gf]
    rw [h.2 g p]
    by_cases hpq : p = s.cur
    · rw [if_pos hpq, hpq, he]
      constructor
      · rintro ⟨e', a, b⟩
        exact ⟨_, rfl, by rw [← b, ← Option.some.inj a]⟩
      · rintro ⟨e', a, b⟩
        refine ⟨e, rfl, ?_⟩
        rw [← b, ← Option.some.inj a]
    · rw [if_neg hpq]
  · intro g hg
    constructor
    · rintro ⟨p, e', a, b, c', d'⟩
      have a : s.cur + 1 ≤ p := a
      have hne : p ≠ s.cur := by omega
      simp only [gf, if_neg hne] at b
      exact ⟨p, e', by omega, b, c', d'⟩
    · rintro ⟨p, e', a, b, c', d'⟩
      have hne : p ≠ s.cur := by
        rintro rfl
        rw [he] at b
        exact hg (by rw [← c', ← hf, Option.some.inj b])
      refine ⟨p, e', ?_, by simp only [gf, if_neg hne]; exact b, c', d'⟩
      show s.cur + 1 ≤ p
      omega
  · intro g e' x' hg
    constructor
    · rintro ⟨p, a, b, c'⟩
      have hne : p ≠ s.cur := by
        rintro rfl
        simp only [gf, if_true] at a
        exact hg (by rw [← c', ← Option.some.inj a, ← hf])
      simp only [gf, if_neg hne] at a
      exact ⟨p, a, b, c'⟩
    · rintro ⟨p, a, b, c'⟩
      have hne : p ≠ s.cur := by
        rintro rfl
        rw [he] at a
        exact hg (by rw [← c', ← hf, Option.some.inj a])
      exact ⟨p, by simp only [gf, if_neg hne]; exact a, b, c'⟩

/-- C145: more wake-ups before the first is told put only one byte into the pipe; the last
reason stays. -/
theorem C145_once (s : Sel) (rs : List Nat) (r : Nat) (d : Nat) (hp : s.pend = none) (ho : s.cout = some d) :
    let s' := wakeUp (rs.foldl wakeUp s) r
    s'.pipe = s.pipe + 1 ∧ s'.reason = r ∧ s'.pend = some rs.length ∧ s'.fds = s.fds ∧ s'.cur = s.cur := by
  have step : ∀ (l : List Nat) (t : Sel) (n : Nat), t.pend = some n →
      (l.foldl wakeUp t).pipe = t.pipe ∧ (l.foldl wakeUp t).pend = some (n + l.length) ∧
      (l.foldl wakeUp t).fds = t.fds ∧ (l.foldl wakeUp t).cur = t.cur := by
    intro l
    induction l with
    | nil => intro t n ht; exact ⟨rfl, by simp [ht], rfl, rfl⟩
    | cons a l ih =>
      intro t n ht
      have : (wakeUp t a).pend = some (n + 1) := by simp [wakeUp, ht]
      obtain ⟨i1, i2, i3, i4⟩ := ih (wakeUp t a) (n + 1) this
      rw [List.foldl_cons]
      refine ⟨?_, ?_, ?_, ?_⟩
      · rw [i1]; simp [wakeUp, ht]
      · rw [i2, List.length_cons]; congr 1; omega
      · rw [i3]; simp [wakeUp, ht]
      · rw [i4]; simp [wakeUp, ht]
  cases rs with
  | nil => simp [wakeUp, hp, ho]
  | cons a l =>
    have h1 : (wakeUp s a).pend = some 0 := by simp [wakeUp, hp]
    obtain ⟨i1, i2, i3, i4⟩ := step l (wakeUp s a) 0 h1
    have w : ∀ (t : Sel) (n : Nat), t.pend = some n → wakeUp t r = { t with reason := r, pend := some (n + 1) } := by
      intro t n ht; simp only [wakeUp, ht]
    simp only [List.foldl_cons]
    rw [w _ _ i2]
    refine ⟨i1.trans ?_, rfl, ?_, i3.trans ?_, i4.trans ?_⟩
    · simp [wakeUp, hp, ho]
    · simp
    · simp [wakeUp, hp]
    · simp [wakeUp, hp]

def waiting : Sel := doPoll ⟨fun _ => Ev.none, 1⟩ (enable start 3 4)

example : ∃ s', getNext [] (wakeUp waiting 9) = .info ⟨3, mi, 0, some 0⟩ s' [] ∧
    isWakeUp s' ⟨3, mi, 0, some 0⟩ = some 9 ∧ s'.pipe = 0 := ⟨_, rfl, rfl, rfl⟩

/-- C145: switching the wake-ups off removes the pipe, and only the pipe; what the others have to
tell stays. -/
theorem C145_disable (s : Sel) (h : WF s) (c d : Nat) (hi : s.cin = some c) (ho : s.cout = some d) :
    WF (disable s) ∧ (∀ g e x, Reg (disable s) g e x ↔ g ≠ c ∧ Reg s g e x) ∧
      (∀ g, Unseen s g → g ≠ c → Unseen (disable s) g) ∧ (disable s).closed = s.closed ++ [c, d] := by
  have hd : disable s = { (unset s c).2 with closed := s.closed ++ [c, d] } := by simp only [disable, hi, ho]
  obtain ⟨a, b, _, _, e⟩ := (C145_registry s h).2.1 c
  rw [hd]
  exact ⟨a, b, e, rfl⟩

example : isSet (disable (enable (set start ⟨5, mi, 50, none⟩) 3 4)) 3 = false ∧
    isSet (disable (enable (set start ⟨5, mi, 50, none⟩) 3 4)) 5 = true := ⟨rfl, rfl⟩

/-- C145: only what is told for the pipe is a wake-up. -/
theorem C145_only_wake (s : Sel) (i : Info) : (isWakeUp s i).isSome = true ↔ s.cin = some i.fd := by
  unfold isWakeUp
  by_cases h : some i.fd = s.cin
  · simp [h]
  · simp [h]
    exact fun e => h e.symm

example : isWakeUp waiting ⟨5, mi, 50, none⟩ = none ∧ (isWakeUp waiting ⟨3, mi, 0, none⟩).isSome = true := ⟨rfl, rfl⟩

/-! ### What is wrong -/

/-- C145 is violated: a wake-up before the first waiting writes at the place -1 of the array. -/
theorem C145_fresh_violated : ∀ ps, getNext ps (wakeUp (enable start 3 4) 9) = .ub := by
  intro ps; rfl

/-- A descriptor with input, told by `poll`; then a wake-up comes. -/
def busy : Sel := doPoll ⟨fun g => if g = 5 then rd else Ev.none, 1⟩ (enable (set start ⟨5, mi, 50, none⟩) 3 4)

/-- C145 is violated: a wake-up takes away what the descriptor at the place of the search has to tell:
the call tells the wake-up, and 5 is not told any more. -/
theorem C145_lost_violated : Unseen busy 5 ∧
    ∃ s', getNext [] (wakeUp busy 9) = .info ⟨3, mi, 0, some 0⟩ s' [] ∧ ¬ Unseen s' 5 := by
  refine ⟨⟨0, _, Nat.zero_le _, rfl, rfl, by decide⟩, _, rfl, ?_⟩
  rintro ⟨p, e, a, b, c, d⟩
  have a : 1 ≤ p := a
  rcases p with _ | _ | p
  · omega
  · have := Option.some.inj b
    subst this
    exact absurd c (by decide)
  · cases b

/-- The pipe is behind another descriptor, and `poll` told both. -/
def both : Sel := doPoll ⟨fun _ => rd, 1⟩ (enable (set start ⟨5, mi, 50, none⟩) 3 4)

/-- C145 is violated: when `poll` has told the pipe already, the wake-up is told twice, and the second
time the empty pipe is read: the call does not come back. -/
theorem C145_block_violated :
    ∃ s', getNext [] (wakeUp both 9) = .info ⟨3, mi, 0, some 0⟩ s' [] ∧ s'.pipe = 0 ∧
      ∃ s2, getNext [] s' = .hang s2 := ⟨_, rfl, rfl, _, rfl⟩

/-- C145 is violated: of two wake-ups only the last reason is told; the documentation promises
all of them, linuxFdSelect.h:156-158. -/
theorem C145_reason_violated :
    ∃ s', getNext [] (wakeUp (wakeUp waiting 8) 9) = .info ⟨3, mi, 0, some 0⟩ s' [] ∧
      isWakeUp s' ⟨3, mi, 0, some 0⟩ = some 9 ∧ (∃ s2, getNext [] s' = .waits s2) :=
  ⟨_, rfl, rfl, _, rfl⟩

/-- C145 is violated: switching the wake-ups off twice, or once before the destructor, closes the
descriptors of the pipe twice; switched on again, the closed ones are used. -/
theorem C145_close_violated (a b : Nat) :
    (disable (disable (enable start a b))).closed = [a, b, a, b] ∧
    ∀ a' b', (enable (disable (enable start a b)) a' b').cin = some a ∧
      a ∈ (enable (disable (enable start a b)) a' b').closed := by
  have h1 : (disable (enable start a b)).closed = [a, b] := rfl
  refine ⟨by simp [disable, enable, set, start, unset, removeFd, upd], ?_⟩
  intro a' b'
  simp [disable, enable, set, start, unset, removeFd, upd]

/-- C145 is violated: an error of a descriptor is told as the end of its time, though it has none. -/
theorem C145_error_violated :
    ∃ s', getNext [⟨fun _ => ⟨false, false, false, true, false, false⟩, 1⟩] (set start ⟨5, mi, 50, none⟩) =
      .info ⟨5, ⟨false, false, false⟩, 50, none⟩ s' [] := ⟨_, rfl⟩

end LS.FdSelect

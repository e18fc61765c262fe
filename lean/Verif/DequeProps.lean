import Verif.Deque
/-! # Properties C13 and C14: Deque, Queue, Stack -/

namespace LS.Deque
variable {α : Type}

/-! ## Refinement relation and helper lemmas -/

theorem mod2 {x n : Nat} (h : x < 2 * n) : x % n = if x < n then x else x - n := by
  split
  · next h1 => exact Nat.mod_eq_of_lt h1
  · next h1 => rw [Nat.mod_eq_sub_mod (by omega), Nat.mod_eq_of_lt (by omega)]

theorem mod2' {x n : Nat} (h : x < 2 * n) : (x < n ∧ x % n = x) ∨ (n ≤ x ∧ x % n = x - n) := by
  rw [mod2 h]; split <;> omega

/-- `d` stores the sequence `l`, item 0 at the back: cell `(tail + i) % size` holds item `i`, all
other cells are raw. -/
structure Rep (d : Deque α) (l : List α) : Prop where
  le : l.length ≤ d.mem.length
  cells : ∀ i < d.mem.length, d.mem[(d.tail + i) % d.mem.length]? = some l[i]?
  tail_lt : d.mem.length ≠ 0 → d.tail < d.mem.length
  tail0 : l = [] → d.tail = 0
  head0 : l = [] → d.head = 0
  head : l ≠ [] → d.head = (d.tail + l.length - 1) % d.mem.length + 1

theorem rep_empty : Rep ({} : Deque α) [] := by
  constructor <;> simp

variable {d : Deque α} {l : List α}

theorem Rep.length_eq (h : Rep d l) : length d = l.length := by
  unfold length
  by_cases hl : l = []
  · simp [h.tail0 hl, h.head0 hl, hl]
  · have h1 := h.head hl
    have h2 := List.length_pos_iff.2 hl
    have h3 := h.le
    have h4 := h.tail_lt (by omega)
    rw [mod2 (by omega)] at h1
    split at h1 <;> split <;> omega

theorem Rep.empty_eq (h : Rep d l) : empty d = l.isEmpty := by
  unfold empty
  cases l with
  | nil => simp [h.head0 rfl]
  | cons a l => simp [h.head (by simp)]

theorem Rep.load (h : Rep d l) {i : Nat} (hi : i < l.length) :
    load d.mem ((d.tail + i) % d.mem.length) = .ok l[i] := by
  have := h.cells i (by have := h.le; omega)
  simp [Deque.load, this, hi]

theorem Rep.at_eq (h : Rep d l) (i : Nat) :
    at_ d i = if h : i < l.length then .ok l[i] else .error .thrown := by
  unfold at_
  rw [h.length_eq]
  by_cases hi : i < l.length
  · rw [if_neg (by omega), dif_pos hi, Nat.add_comm, h.load hi]
  · rw [if_pos (by omega), dif_neg hi]

theorem Rep.getBack_eq (h : Rep d l) :
    getBack d = match l.head? with | some v => .ok v | none => .error .thrown := by
  unfold getBack
  rw [h.empty_eq]
  cases l with
  | nil => rfl
  | cons a l =>
    have hle := h.le
    simp only [List.length_cons] at hle
    have := h.load (i := 0) (by simp)
    rw [Nat.add_zero, Nat.mod_eq_of_lt (h.tail_lt (by omega))] at this
    simpa using this

theorem Rep.getFront_eq (h : Rep d l) :
    getFront d = match l.getLast? with | some v => .ok v | none => .error .thrown := by
  unfold getFront
  rw [h.empty_eq]
  by_cases hl : l = []
  · simp [hl]
  · have h2 := List.length_pos_iff.2 hl
    have := h.load (i := l.length - 1) (by omega)
    rw [h.head hl, List.isEmpty_eq_false_iff.2 hl, Nat.add_sub_cancel, Nat.add_sub_assoc h2, this]
    rw [List.getLast?_eq_getElem?, List.getElem?_eq_getElem (by omega)]
    rfl

theorem Rep.set_eq (h : Rep d l) (i : Nat) (v : α) :
    if i < l.length then ∃ d', set d i v = .ok d' ∧ Rep d' (l.set i v)
    else set d i v = .error .thrown := by
  unfold Deque.set
  rw [h.length_eq]
  split
  · next hi =>
    rw [if_neg (by omega)]
    have hle := h.le
    have hc := h.cells i (by omega)
    rw [Nat.add_comm i, hc, List.getElem?_eq_getElem hi]
    refine ⟨_, rfl, ?_⟩
    have ht := h.tail_lt (by omega)
    constructor
    · simpa using h.le
    · intro j hj
      simp only [List.length_set] at hj ⊢
      rw [List.getElem?_set, h.cells j hj, List.getElem?_set]
      have e1 : (d.tail + i) % d.mem.length < d.mem.length := Nat.mod_lt _ (by omega)
      by_cases hij : i = j
      · subst hij; simp [e1, hi]
      · have e2 : (d.tail + i) % d.mem.length ≠ (d.tail + j) % d.mem.length := by
          rw [mod2 (by omega), mod2 (by omega)]; split <;> split <;> omega
        simp [e2, hij]
    · simpa using h.tail_lt
    · intro hn; simp at hn; exact h.tail0 hn
    · intro hn; simp at hn; exact h.head0 hn
    · intro hn; simp at hn ⊢; exact h.head hn
  · rw [if_pos (by omega)]

/-- The state of `doMove` after `i` of the items. -/
theorem doMove_spec (d : Deque α) (l : List α) (hr : Rep d l) (req : Nat) (hreq : l.length ≤ req) (n : Nat) :
    ∀ (i : Nat) (old new : List (Option α)), i + n = l.length →
      old.length = d.mem.length → new.length = req →
      (∀ j < d.mem.length, old[(d.tail + j) % d.mem.length]? =
        some (if j < i then none else l[j]?)) →
      (∀ j < req, new[j]? = some (if j < i then l[j]? else none)) →
      ∃ old' new', doMove old new d.mem.length d.tail i n = .ok (old', new') ∧
        old'.length = d.mem.length ∧ new'.length = req ∧
        (∀ j < d.mem.length, old'[(d.tail + j) % d.mem.length]? = some none) ∧
        (∀ j < req, new'[j]? = some l[j]?) := by
  induction n with
  | zero =>
    intro i old new hi h1 h2 h3 h4
    refine ⟨old, new, rfl, h1, h2, ?_, ?_⟩
    · intro j hj
      rw [h3 j hj]
      split
      · rfl
      · rw [List.getElem?_eq_none (by omega)]
    · intro j hj
      rw [h4 j hj]
      split
      · rfl
      · rw [List.getElem?_eq_none (by omega)]
  | succ n ih =>
    intro i old new hi h1 h2 h3 h4
    have hle := hr.le
    have ht := hr.tail_lt (by omega)
    have hil : i < l.length := by omega
    have a1 : load old ((d.tail + i) % d.mem.length) = .ok l[i] := by
      simp [Deque.load, h3 i (by omega), hil]
    have a2 : construct new i l[i] = .ok (new.set i (some l[i])) := by
      simp [construct, h4 i (by omega)]
    have a3 : destroy old ((d.tail + i) % d.mem.length) =
        .ok (old.set ((d.tail + i) % d.mem.length) none) := by
      simp [destroy, h3 i (by omega), hil]
    obtain ⟨o', n', b1, b2⟩ := ih (i + 1) (old.set ((d.tail + i) % d.mem.length) none)
      (new.set i (some l[i])) (by omega) (by simpa using h1) (by simpa using h2)
      (by
        intro j hj
        have e1 : (d.tail + i) % d.mem.length < old.length := by
          rw [h1]; exact Nat.mod_lt _ (by omega)
        rw [List.getElem?_set]
        by_cases hij : i = j
        · subst hij; rw [if_pos rfl, if_pos e1, if_pos (by omega)]
        · have e2 : (d.tail + i) % d.mem.length ≠ (d.tail + j) % d.mem.length := by
            rw [mod2 (by omega), mod2 (by omega)]; split <;> split <;> omega
          rw [if_neg e2, h3 j hj]
          by_cases hji : j < i
          · rw [if_pos hji, if_pos (by omega)]
          · rw [if_neg hji, if_neg (by omega)])
      (by
        intro j hj
        rw [List.getElem?_set]
        by_cases hij : i = j
        · subst hij
          rw [if_pos rfl, if_pos (by omega), if_pos (by omega), List.getElem?_eq_getElem hil]
        · rw [if_neg hij, h4 j hj]
          by_cases hji : j < i
          · rw [if_pos hji, if_pos (by omega)]
          · rw [if_neg hji, if_neg (by omega)])
    refine ⟨o', n', ?_, b2⟩
    rw [doMove, a1]
    simp only [bind, Except.bind]
    rw [a2]
    simp only
    rw [a3]
    exact b1

theorem release_ok {mem : List (Option α)} {t : Nat} (ht : mem.length ≠ 0 → t < mem.length)
    (h : ∀ j < mem.length, mem[(t + j) % mem.length]? = some none) :
    release mem = .ok () := by
  unfold release
  rw [if_pos]
  rw [List.all_eq_true]
  intro x hx
  obtain ⟨p, hp, rfl⟩ := List.getElem_of_mem hx
  have ht := ht (by omega)
  have key : ∃ j, j < mem.length ∧ (t + j) % mem.length = p := by
    by_cases hpt : t ≤ p
    · exact ⟨p - t, by omega, by rw [mod2 (by omega), if_pos (by omega)]; omega⟩
    · exact ⟨p + mem.length - t, by omega, by rw [mod2 (by omega), if_neg (by omega)]; omega⟩
  obtain ⟨j, hj, hjp⟩ := key
  have := h j hj
  rw [hjp, List.getElem?_eq_getElem hp] at this
  simp only [Option.some.injEq] at this
  simp [this]

theorem Rep.resize (h : Rep d l) {req : Nat} (hreq : l.length < req) :
    ∃ d', internalResize d req l.length = .ok d' ∧ d'.mem.length = req ∧ Rep d' l := by
  obtain ⟨o', n', b1, b2, b3, b4, b5⟩ := doMove_spec d l h req (by omega) l.length 0 d.mem
    (List.replicate req none) (by omega) rfl (by simp)
    (by intro j hj; simp [h.cells j hj])
    (by intro j hj; simp [hj])
  have hrel : release o' = .ok () := by
    refine release_ok (t := d.tail) (by rw [b2]; exact h.tail_lt) ?_
    rw [b2]; exact b4
  refine ⟨{ mem := n', head := l.length, tail := 0 }, ?_, b3, ?_⟩
  · unfold internalResize
    rw [b1]
    simp only [bind, Except.bind]
    rw [hrel]
    rfl
  · constructor
    · simp only [b3]; omega
    · intro i hi
      simp only [b3] at hi ⊢
      rw [Nat.zero_add, Nat.mod_eq_of_lt hi, b5 i hi]
    · intro _; simp only [b3]; omega
    · intro _; rfl
    · intro hn; simp [hn]
    · intro hn
      have := List.length_pos_iff.2 hn
      simp only [b3, Nat.zero_add]
      rw [Nat.mod_eq_of_lt (by omega)]
      omega

theorem Rep.reserve_eq (h : Rep d l) (n : Nat) :
    ∃ d', reserve d n = .ok (decide (l.length < n), d') ∧ Rep d' l ∧
      (l.length < n → d'.mem.length = n) := by
  unfold reserve
  rw [h.length_eq]
  by_cases hn : n > l.length
  · obtain ⟨d', h1, h2, h3⟩ := h.resize hn
    rw [if_pos hn, h1]
    exact ⟨d', by simp [bind, Except.bind, pure, Except.pure]; omega, h3, fun _ => h2⟩
  · rw [if_neg hn]
    exact ⟨d, by simp [pure, Except.pure]; omega, h, fun hh => absurd hh (by omega)⟩

/-- After the expansion step of a push there is a free cell. -/
theorem Rep.room (h : Rep d l) :
    ∃ d', makeRoom d = .ok d' ∧ Rep d' l ∧
      l.length < d'.mem.length := by
  unfold makeRoom
  by_cases hf : isFull d
  · rw [if_pos hf]
    unfold tryExpand
    simp only [h.length_eq]
    obtain ⟨d', h1, h2, h3⟩ := h.reserve_eq
      (if l.length ≠ 0 then l.length + (l.length + 1) / 2 else 1)
    have hlt : l.length < if l.length ≠ 0 then l.length + (l.length + 1) / 2 else 1 := by
      split <;> omega
    rw [h1]
    refine ⟨d', ?_, h2, ?_⟩
    · simp only [bind, Except.bind, decide_eq_true hlt, if_true]
      rfl
    · rw [h3 hlt]; exact hlt
  · rw [if_neg hf]
    refine ⟨d, rfl, h, ?_⟩
    have := h.le
    simp only [isFull, h.length_eq, beq_iff_eq] at hf
    omega

theorem Rep.pushFront_ok (h : Rep d l) (v : α) :
    ∃ d', pushFront d v = .ok d' ∧ Rep d' (l ++ [v]) := by
  unfold pushFront
  obtain ⟨e, h1, hr, hlt⟩ := h.room
  rw [h1]
  have ht := hr.tail_lt (by omega)
  have ha : e.head % e.mem.length = (e.tail + l.length) % e.mem.length := by
    by_cases hl : l = []
    · simp [hr.head0 hl, hr.tail0 hl, hl]
    · have := List.length_pos_iff.2 hl
      rw [hr.head hl]
      rw [mod2 (x := e.tail + l.length - 1) (by omega), mod2 (x := e.tail + l.length) (by omega)]
      split <;> rw [mod2 (by omega)] <;> split <;> split <;> omega
  have hc : construct e.mem (e.head % e.mem.length) v =
      .ok (e.mem.set (e.head % e.mem.length) (some v)) := by
    simp [construct, ha, hr.cells _ hlt]
  simp only [bind, Except.bind]
  rw [if_neg (by omega), hc]
  refine ⟨_, rfl, ?_⟩
  rw [ha]
  constructor
  · simp; omega
  · intro j hj
    simp only [List.length_set] at hj ⊢
    have e1 : (e.tail + l.length) % e.mem.length < e.mem.length := Nat.mod_lt _ (by omega)
    rw [List.getElem?_set]
    by_cases hij : l.length = j
    · subst hij; simp [e1]
    · have e2 : (e.tail + l.length) % e.mem.length ≠ (e.tail + j) % e.mem.length := by
        rw [mod2 (by omega), mod2 (by omega)]; split <;> split <;> omega
      rw [if_neg e2, hr.cells j hj]
      congr 1
      by_cases hjl : j < l.length
      · rw [List.getElem?_append_left hjl]
      · rw [List.getElem?_eq_none (by omega), List.getElem?_eq_none (by simp; omega)]
  · simpa using hr.tail_lt
  · simp
  · simp
  · intro _; simp

theorem Rep.pushBack_ok (h : Rep d l) (v : α) :
    ∃ d', pushBack d v = .ok d' ∧ Rep d' (v :: l) := by
  unfold pushBack
  obtain ⟨e, h1, hr, hlt⟩ := h.room
  rw [h1]
  have ht := hr.tail_lt (by omega)
  have ha : (e.tail + e.mem.length - 1) % e.mem.length =
      (e.tail + (e.mem.length - 1)) % e.mem.length := by
    congr 1; omega
  have hc : construct e.mem ((e.tail + e.mem.length - 1) % e.mem.length) v =
      .ok (e.mem.set ((e.tail + e.mem.length - 1) % e.mem.length) (some v)) := by
    simp only [construct, ha, hr.cells (e.mem.length - 1) (by omega)]
    rw [List.getElem?_eq_none (by omega)]
  simp only [bind, Except.bind]
  rw [if_neg (by omega), hc]
  refine ⟨_, rfl, ?_⟩
  constructor
  · simp; omega
  · intro j hj
    simp only [List.length_set] at hj ⊢
    rw [List.getElem?_set]
    have e1 : (e.tail + e.mem.length - 1) % e.mem.length < e.mem.length := Nat.mod_lt _ (by omega)
    cases j with
    | zero =>
      rw [Nat.add_zero, Nat.mod_mod, if_pos rfl, if_pos e1]
      rfl
    | succ j =>
      have e2 : (e.tail + e.mem.length - 1) % e.mem.length ≠ 
          ((e.tail + e.mem.length - 1) % e.mem.length + (j + 1)) % e.mem.length := by
        rw [mod2 (x := e.tail + e.mem.length - 1) (by omega)]
        split <;> rw [mod2 (by omega)] <;> split <;> omega
      have e3 : ((e.tail + e.mem.length - 1) % e.mem.length + (j + 1)) % e.mem.length =
          (e.tail + j) % e.mem.length := by
        rw [mod2 (x := e.tail + e.mem.length - 1) (by omega), mod2 (x := e.tail + j) (by omega)]
        split <;> rw [mod2 (by omega)] <;> split <;> split <;> omega
      rw [if_neg e2, e3, hr.cells j (by omega), List.getElem?_cons_succ]
  · intro _; simp only [List.length_set]; exact Nat.mod_lt _ (by omega)
  · simp
  · simp
  · intro _
    simp only [List.length_set, List.length_cons]
    by_cases hl : l = []
    · rw [if_pos (hr.head0 hl)]
      simp only [hr.tail0 hl, hl, List.length_nil]
      rw [mod2 (x := 0 + e.mem.length - 1) (by omega), if_pos (by omega), mod2 (by omega), if_pos (by omega)]
      omega
    · have h0 := List.length_pos_iff.2 hl
      have := hr.head hl
      rw [if_neg (by omega), this]
      congr 1
      have c1 := mod2' (x := e.tail + e.mem.length - 1) (n := e.mem.length) (by omega)
      have c2 := mod2' (x := e.tail + l.length - 1) (n := e.mem.length) (by omega)
      generalize (e.tail + e.mem.length - 1) % e.mem.length = t' at *
      generalize (e.tail + l.length - 1) % e.mem.length = t2 at *
      have c3 := mod2' (x := t' + (l.length + 1) - 1) (n := e.mem.length) (by omega)
      omega

theorem Rep.popFront_ok (h : Rep d l) (hl : l ≠ []) :
    ∃ d', popFront d = .ok d' ∧ d'.mem.length = d.mem.length ∧ Rep d' l.dropLast := by
  have hp := List.length_pos_iff.2 hl
  have hle := h.le
  have ht := h.tail_lt (by omega)
  have hh := h.head hl
  unfold popFront
  rw [h.empty_eq, List.isEmpty_eq_false_iff.2 hl]
  have hd : destroy d.mem (d.head - 1) = .ok (d.mem.set (d.head - 1) none) := by
    have := h.cells (l.length - 1) (by omega)
    rw [hh, Nat.add_sub_cancel, Nat.add_sub_assoc hp, destroy, this,
      List.getElem?_eq_getElem (by omega)]
  have ht' : d.head - 1 < d.mem.length := by
    rw [hh, Nat.add_sub_cancel]; exact Nat.mod_lt _ (by omega)
  have hh' : d.head - 1 = (d.tail + (l.length - 1)) % d.mem.length := by
    rw [hh, Nat.add_sub_cancel]; congr 1; omega
  have cellsOK : ∀ i < d.mem.length, (d.mem.set (d.head - 1) none)[(d.tail + i) % d.mem.length]? =
      some l.dropLast[i]? := by
    intro j hj
    rw [List.getElem?_set]
    by_cases hij : l.length - 1 = j
    · subst hij
      rw [← hh', if_pos rfl, if_pos ht', List.getElem?_eq_none (by simp)]
    · have e2 : d.head - 1 ≠ (d.tail + j) % d.mem.length := by
        rw [hh', mod2 (by omega), mod2 (by omega)]; split <;> split <;> omega
      rw [if_neg e2, h.cells j hj, List.getElem?_dropLast]
      by_cases hj2 : j < l.length - 1
      · rw [if_pos hj2]
      · rw [if_neg hj2, List.getElem?_eq_none (by omega)]
  simp only [Bool.false_eq_true, if_false, bind, Except.bind, hd]
  by_cases h1 : d.head - 1 = d.tail
  · have hl1 : l.length = 1 := by
      rw [hh', mod2 (by omega)] at h1; split at h1 <;> omega
    rw [if_pos h1]
    have hdl : l.dropLast = [] := by
      apply List.eq_nil_of_length_eq_zero; simp; omega
    refine ⟨_, rfl, by simp, ?_⟩
    rw [hdl]
    constructor
    · simp
    · intro j hj
      simp only [List.length_set] at hj ⊢
      rw [Nat.zero_add, Nat.mod_eq_of_lt hj]
      have key : ∃ i, i < d.mem.length ∧ (d.tail + i) % d.mem.length = j := by
        by_cases hpt : d.tail ≤ j
        · exact ⟨j - d.tail, by omega, by rw [mod2 (by omega), if_pos (by omega)]; omega⟩
        · exact ⟨j + d.mem.length - d.tail, by omega, by
            rw [mod2 (by omega), if_neg (by omega)]; omega⟩
      obtain ⟨i, hi, hij⟩ := key
      rw [← hij, cellsOK i hi, hdl]; rfl
    · intro _; simp only [List.length_set]; omega
    · intro _; rfl
    · intro _; rfl
    · intro hn; exact absurd rfl hn
  · rw [if_neg h1]
    have hl1 : 1 < l.length := by
      rw [hh', mod2 (by omega)] at h1; split at h1 <;> omega
    have hdl : l.dropLast ≠ [] := by
      intro hn
      have := congrArg List.length hn
      simp at this; omega
    refine ⟨_, rfl, by simp, ?_⟩
    constructor
    · simp; omega
    · simpa using cellsOK
    · simpa using h.tail_lt
    · intro hn; exact absurd hn hdl
    · intro hn; exact absurd hn hdl
    · intro _
      simp only [List.length_set, List.length_dropLast]
      congr 1
      rw [hh', mod2 (x := d.tail + (l.length - 1)) (by omega),
        mod2 (x := d.tail + (l.length - 1) - 1) (by omega)]
      split <;> rw [mod2 (by omega)] <;> split <;> split <;> omega

theorem Rep.popBack_ok (h : Rep d l) (hl : l ≠ []) :
    ∃ d', popBack d = .ok d' ∧ Rep d' l.tail := by
  have hp := List.length_pos_iff.2 hl
  have hle := h.le
  have ht := h.tail_lt (by omega)
  have hh := h.head hl
  unfold popBack
  rw [h.empty_eq, List.isEmpty_eq_false_iff.2 hl]
  have hd : destroy d.mem d.tail = .ok (d.mem.set d.tail none) := by
    have := h.cells 0 (by omega)
    rw [Nat.add_zero, Nat.mod_eq_of_lt ht] at this
    rw [destroy, this, List.getElem?_eq_getElem (by omega)]
  simp only [Bool.false_eq_true, if_false, bind, Except.bind, hd]
  have cellsOK : ∀ i < d.mem.length,
      (d.mem.set d.tail none)[((d.tail + 1) % d.mem.length + i) % d.mem.length]? =
      some l.tail[i]? := by
    intro j hj
    rw [List.getElem?_set, List.getElem?_tail]
    by_cases hij : j = d.mem.length - 1
    · have e : d.tail = ((d.tail + 1) % d.mem.length + j) % d.mem.length := by
        rw [mod2 (x := d.tail + 1) (by omega)]
        split <;> rw [mod2 (by omega)] <;> split <;> omega
      rw [if_pos e, if_pos ht, List.getElem?_eq_none (by omega)]
    · have e2 : d.tail ≠ ((d.tail + 1) % d.mem.length + j) % d.mem.length := by
        rw [mod2 (x := d.tail + 1) (by omega)]
        split <;> rw [mod2 (by omega)] <;> split <;> omega
      have e3 : ((d.tail + 1) % d.mem.length + j) % d.mem.length =
          (d.tail + (j + 1)) % d.mem.length := by
        rw [mod2 (x := d.tail + 1) (by omega), mod2 (x := d.tail + (j + 1)) (by omega)]
        split <;> rw [mod2 (by omega)] <;> split <;> split <;> omega
      rw [if_neg e2, e3, h.cells (j + 1) (by omega)]
  by_cases h1 : d.head = d.tail + 1
  · have hl1 : l.length = 1 := by
      rw [hh, mod2 (by omega)] at h1; split at h1 <;> omega
    rw [if_pos h1]
    have hdl : l.tail = [] := by
      apply List.eq_nil_of_length_eq_zero; simp; omega
    refine ⟨_, rfl, ?_⟩
    rw [hdl]
    constructor
    · simp
    · intro j hj
      simp only [List.length_set] at hj ⊢
      rw [Nat.zero_add, Nat.mod_eq_of_lt hj]
      have h0 : (d.tail + 1) % d.mem.length < d.mem.length := Nat.mod_lt _ (by omega)
      have key : ∃ i, i < d.mem.length ∧ ((d.tail + 1) % d.mem.length + i) % d.mem.length = j := by
        generalize (d.tail + 1) % d.mem.length = t at h0
        by_cases hpt : t ≤ j
        · exact ⟨j - t, by omega, by rw [mod2 (by omega), if_pos (by omega)]; omega⟩
        · exact ⟨j + d.mem.length - t, by omega, by
            rw [mod2 (by omega), if_neg (by omega)]; omega⟩
      obtain ⟨i, hi, hij⟩ := key
      rw [← hij, cellsOK i hi, hdl]; rfl
    · intro _; simp only [List.length_set]; omega
    · intro _; rfl
    · intro _; rfl
    · intro hn; exact absurd rfl hn
  · rw [if_neg h1]
    have hl1 : 1 < l.length := by
      rw [hh, mod2 (by omega)] at h1; split at h1 <;> omega
    have hdl : l.tail ≠ [] := by
      intro hn
      have := congrArg List.length hn
      simp at this; omega
    refine ⟨_, rfl, ?_⟩
    constructor
    · simp; omega
    · simpa using cellsOK
    · intro _; simp only [List.length_set]; exact Nat.mod_lt _ (by omega)
    · intro hn; exact absurd hn hdl
    · intro hn; exact absurd hn hdl
    · intro _
      simp only [List.length_set, List.length_tail]
      rw [hh]
      congr 1
      have c1 := mod2' (x := d.tail + 1) (n := d.mem.length) (by omega)
      have c2 := mod2' (x := d.tail + l.length - 1) (n := d.mem.length) (by omega)
      generalize (d.tail + 1) % d.mem.length = t' at *
      generalize (d.tail + l.length - 1) % d.mem.length = t2 at *
      have c3 := mod2' (x := t' + (l.length - 1) - 1) (n := d.mem.length) (by omega)
      omega

theorem clearLoop_ok (n : Nat) : ∀ (d : Deque α) (l : List α), Rep d l → l.length ≤ n →
    ∃ d', clearLoop n d = .ok d' ∧ Rep d' [] := by
  induction n with
  | zero =>
    intro d l h hn
    have : l = [] := List.eq_nil_of_length_eq_zero (by omega)
    subst this
    exact ⟨d, by simp [clearLoop, h.empty_eq], h⟩
  | succ n ih =>
    intro d l h hn
    by_cases hl : l = []
    · subst hl
      exact ⟨d, by simp [clearLoop, h.empty_eq], h⟩
    · obtain ⟨d1, h1, -, h2⟩ := h.popFront_ok hl
      obtain ⟨d2, h3, h4⟩ := ih d1 _ h2 (by simp; omega)
      refine ⟨d2, ?_, h4⟩
      rw [clearLoop, h.empty_eq, List.isEmpty_eq_false_iff.2 hl, h1]
      exact h3

theorem Rep.destructor_ok (h : Rep d l) : destructor d = .ok () := by
  unfold destructor
  rw [h.length_eq]
  have key : ∀ (n i : Nat) (mem : List (Option α)), i + n = l.length → mem.length = d.mem.length →
      (∀ j < d.mem.length, mem[(d.tail + j) % d.mem.length]? =
        some (if j < i then none else l[j]?)) →
      ∃ mem', destroyAll mem d.mem.length d.tail i n = .ok mem' ∧ mem'.length = d.mem.length ∧
        ∀ j < d.mem.length, mem'[(d.tail + j) % d.mem.length]? = some none := by
    intro n
    induction n with
    | zero =>
      intro i mem hi hm hc
      refine ⟨mem, rfl, hm, ?_⟩
      intro j hj
      rw [hc j hj]
      split
      · rfl
      · rw [List.getElem?_eq_none (by omega)]
    | succ n ih =>
      intro i mem hi hm hc
      have hle := h.le
      have ht := h.tail_lt (by omega)
      have hil : i < l.length := by omega
      have a3 : destroy mem ((d.tail + i) % d.mem.length) =
          .ok (mem.set ((d.tail + i) % d.mem.length) none) := by
        simp [destroy, hc i (by omega), hil]
      obtain ⟨m', b1, b2⟩ := ih (i + 1) (mem.set ((d.tail + i) % d.mem.length) none) (by omega)
        (by simpa using hm) (by
          intro j hj
          have e1 : (d.tail + i) % d.mem.length < mem.length := by
            rw [hm]; exact Nat.mod_lt _ (by omega)
          rw [List.getElem?_set]
          by_cases hij : i = j
          · subst hij; rw [if_pos rfl, if_pos e1, if_pos (by omega)]
          · have e2 : (d.tail + i) % d.mem.length ≠ (d.tail + j) % d.mem.length := by
              rw [mod2 (by omega), mod2 (by omega)]; split <;> split <;> omega
            rw [if_neg e2, hc j hj]
            by_cases hji : j < i
            · rw [if_pos hji, if_pos (by omega)]
            · rw [if_neg hji, if_neg (by omega)])
      refine ⟨m', ?_, b2⟩
      rw [destroyAll, a3]
      exact b1
  obtain ⟨m', b1, b2, b3⟩ := key l.length 0 d.mem (by omega) rfl
    (by intro j hj; simp [h.cells j hj])
  rw [b1]
  exact release_ok (t := d.tail) (by rw [b2]; exact h.tail_lt) (by rw [b2]; exact b3)

/-! ## Specification

A deque is a sequence, listed from back to front. -/

/-- The operations that change a deque. -/
inductive Op (α : Type) where
  | pushFront (v : α)
  | pushBack (v : α)
  | popFront
  | popBack
  | set (index : Nat) (v : α)
  | reserve (count : Nat)
  | clear

/-- What each operation means for a sequence; `none` = refused with an exception. -/
def Op.spec : Op α → List α → Option (List α)
  | .pushFront v, l => some (l ++ [v])
  | .pushBack v, l => some (v :: l)
  | .popFront, l => if l = [] then none else some l.dropLast
  | .popBack, l => if l = [] then none else some l.tail
  | .set i v, l => if i < l.length then some (l.set i v) else none
  | .reserve _, l => some l
  | .clear, _ => some []

/-- A user's command: an operation on one of two deques, or swapping them. -/
inductive Cmd (α : Type) where
  | first (op : Op α)
  | second (op : Op α)
  | swap

/-- Meaning of a command; the flag tells whether an exception was thrown. -/
def Cmd.spec : Cmd α → List α × List α → Bool × List α × List α
  | .first op, (a, b) => match op.spec a with | some a' => (false, a', b) | none => (true, a, b)
  | .second op, (a, b) => match op.spec b with | some b' => (false, a, b') | none => (true, a, b)
  | .swap, (a, b) => (false, b, a)

/-- Meaning of a history. -/
def specRun : List (Cmd α) → List α × List α → List Bool × List α × List α
  | [], s => ([], s)
  | c :: cs, s =>
    let (t, s1) := c.spec s
    let (ts, s2) := specRun cs s1
    (t :: ts, s2)

/-! ## The same history on the model -/

/-- An operation executed by the code. -/
def Op.exec : Op α → Deque α → Except Err (Deque α)
  | .pushFront v, d => Deque.pushFront d v
  | .pushBack v, d => Deque.pushBack d v
  | .popFront, d => Deque.popFront d
  | .popBack, d => Deque.popBack d
  | .set i v, d => Deque.set d i v
  | .reserve n, d => (Deque.reserve d n).map (·.2)
  | .clear, d => Deque.clear d

/-- Catching the library's exception; undefined behaviour ends the run. -/
def guard (d : Deque α) : Except Err (Deque α) → Except Err (Bool × Deque α)
  | .ok d' => .ok (false, d')
  | .error .thrown => .ok (true, d)
  | .error .ub => .error .ub

/-- deque.tcc:285-290 `swap` exchanges all members. -/
def Cmd.exec : Cmd α → Deque α × Deque α → Except Err (Bool × Deque α × Deque α)
  | .first op, (a, b) => do let (t, a') ← guard a (op.exec a); return (t, a', b)
  | .second op, (a, b) => do let (t, b') ← guard b (op.exec b); return (t, a, b')
  | .swap, (a, b) => .ok (false, b, a)

/-- A history executed by the code. -/
def execRun : List (Cmd α) → Deque α × Deque α → Except Err (List Bool × Deque α × Deque α)
  | [], s => .ok ([], s)
  | c :: cs, s => do
    let (t, s1) ← c.exec s
    let (ts, s2) ← execRun cs s1
    return (t :: ts, s2)

theorem Op.refine (op : Op α) {d : Deque α} {l : List α} (h : Rep d l) :
    match op.spec l with
    | some l' => ∃ d', op.exec d = .ok d' ∧ Rep d' l'
    | none => op.exec d = .error .thrown := by
  cases op with
  | pushFront v => exact h.pushFront_ok v
  | pushBack v => exact h.pushBack_ok v
  | popFront =>
    simp only [Op.spec, Op.exec]
    by_cases hl : l = []
    · simp [hl, Deque.popFront, h.empty_eq]
    · obtain ⟨d', h1, -, h2⟩ := h.popFront_ok hl
      simp only [hl, if_false]
      exact ⟨d', h1, h2⟩
  | popBack =>
    simp only [Op.spec, Op.exec]
    by_cases hl : l = []
    · simp [hl, Deque.popBack, h.empty_eq]
    · simp only [hl, if_false]
      exact h.popBack_ok hl
  | set i v =>
    have := h.set_eq i v
    simp only [Op.spec, Op.exec]
    by_cases hi : i < l.length
    · simp only [hi, if_true] at this ⊢; exact this
    · simp only [hi, if_false] at this ⊢; exact this
  | reserve n =>
    obtain ⟨d', h1, h2, -⟩ := h.reserve_eq n
    exact ⟨d', by simp [Op.exec, h1, Except.map], h2⟩
  | clear => exact clearLoop_ok _ d l h h.le

theorem Cmd.refine (c : Cmd α) {a b : Deque α} {la lb : List α} (ha : Rep a la) (hb : Rep b lb) :
    ∃ a' b', c.exec (a, b) = .ok ((c.spec (la, lb)).1, a', b') ∧
      Rep a' (c.spec (la, lb)).2.1 ∧ Rep b' (c.spec (la, lb)).2.2 := by
  cases c with
  | first op =>
    have := op.refine ha
    simp only [Cmd.exec, Cmd.spec]
    split at this
    · obtain ⟨d', h1, h2⟩ := this
      exact ⟨d', b, by rw [h1]; rfl, h2, hb⟩
    · exact ⟨a, b, by rw [this]; rfl, ha, hb⟩
  | second op =>
    have := op.refine hb
    simp only [Cmd.exec, Cmd.spec]
    split at this
    · obtain ⟨d', h1, h2⟩ := this
      exact ⟨a, d', by rw [h1]; rfl, ha, h2⟩
    · exact ⟨a, b, by rw [this]; rfl, ha, hb⟩
  | swap => exact ⟨b, a, rfl, hb, ha⟩

theorem run_refine (cs : List (Cmd α)) : ∀ {a b : Deque α} {la lb : List α}, Rep a la → Rep b lb →
    ∃ a' b', execRun cs (a, b) = .ok ((specRun cs (la, lb)).1, a', b') ∧
      Rep a' (specRun cs (la, lb)).2.1 ∧ Rep b' (specRun cs (la, lb)).2.2 := by
  induction cs with
  | nil => intro a b la lb ha hb; exact ⟨a, b, rfl, ha, hb⟩
  | cons c cs ih =>
    intro a b la lb ha hb
    obtain ⟨a1, b1, h1, h2, h3⟩ := c.refine ha hb
    obtain ⟨a2, b2, h4, h5, h6⟩ := ih h2 h3
    refine ⟨a2, b2, ?_, h5, h6⟩
    simp only [execRun, h1, bind, Except.bind, h4]
    rfl

/-- What a user can observe of a deque. -/
structure Observes (d : Deque α) (l : List α) : Prop where
  length : length d = l.length
  empty : empty d = true ↔ l = []
  item : ∀ i (h : i < l.length), at_ d i = .ok l[i]
  item_range : ∀ i, l.length ≤ i → at_ d i = .error .thrown
  back : ∀ v, getBack d = .ok v ↔ l.head? = some v
  back_empty : l = [] → getBack d = .error .thrown
  front : ∀ v, getFront d = .ok v ↔ l.getLast? = some v
  front_empty : l = [] → getFront d = .error .thrown
  /-- destroying the deque destroys every object exactly once -/
  destroyed : destructor d = .ok ()

theorem Rep.observes {d : Deque α} {l : List α} (h : Rep d l) : Observes d l where
  length := h.length_eq
  empty := by rw [h.empty_eq]; simp
  item := fun i hi => by rw [h.at_eq, dif_pos hi]
  item_range := fun i hi => by rw [h.at_eq, dif_neg (by omega)]
  back := fun v => by rw [h.getBack_eq]; cases l.head? <;> simp
  back_empty := fun hl => by rw [h.getBack_eq, hl]; rfl
  front := fun v => by rw [h.getFront_eq]; cases l.getLast? <;> simp
  front_empty := fun hl => by rw [h.getFront_eq, hl]; rfl
  destroyed := h.destructor_ok

/-! ## Property theorems -/

/-- C13: for every history of operations on two deques (including swaps), starting from empty
ones, the code never runs into undefined behaviour, throws exactly where the sequence operation is
refused, and afterwards both deques are observed to be the sequences obtained by performing the
same history on mathematical sequences. -/
theorem C13_deque_is_sequence (cs : List (Cmd α)) :
    ∃ a b, execRun cs ({}, {}) = .ok ((specRun cs ([], [])).1, a, b) ∧
      Observes a (specRun cs ([], [])).2.1 ∧ Observes b (specRun cs ([], [])).2.2 := by
  obtain ⟨a, b, h1, h2, h3⟩ := run_refine cs (rep_empty (α := α)) rep_empty
  exact ⟨a, b, h1, h2.observes, h3.observes⟩

/-- C13: `reserve` reports success exactly when it was asked for more than the current length. -/
theorem C13_reserve_result (cs : List (Cmd α)) (a b : Deque α) (ts : List Bool)
    (h : execRun cs ({}, {}) = .ok (ts, a, b)) (n : Nat) :
    ∃ a', reserve a n = .ok (decide (length a < n), a') ∧
      ∃ l, Observes a l ∧ Observes a' l ∧ (length a < n → a'.mem.length = n) := by
  obtain ⟨a1, b1, h1, h2, -⟩ := run_refine cs (rep_empty (α := α)) rep_empty
  rw [h] at h1
  cases h1
  obtain ⟨a', h4, h5, h6⟩ := h2.reserve_eq n
  rw [h2.length_eq]
  exact ⟨a', h4, _, h2.observes, h5.observes, h6⟩

/-! ### Queue and stack -/

/-- A user's step on a queue or stack: push, or read the top and pop it. -/
inductive QOp (α : Type) where
  | push (v : α)
  | pop

/-- Running a history on a `Queue` (queue.h); returns the items taken out, `none` for a refused
pop. -/
def queueRun : List (QOp α) → Deque α → Except Err (List (Option α) × Deque α)
  | [], d => .ok ([], d)
  | .push v :: os, d => do queueRun os (← Queue.push d v)
  | .pop :: os, d =>
    match Queue.top d with
    | .error .ub => .error .ub
    | .error .thrown => do let (r, d') ← queueRun os d; return (none :: r, d')
    | .ok v => do let (r, d') ← queueRun os (← Queue.pop d); return (some v :: r, d')

/-- The same for a `Stack` (stack.h). -/
def stackRun : List (QOp α) → Deque α → Except Err (List (Option α) × Deque α)
  | [], d => .ok ([], d)
  | .push v :: os, d => do stackRun os (← Stack.push d v)
  | .pop :: os, d =>
    match Stack.top d with
    | .error .ub => .error .ub
    | .error .thrown => do let (r, d') ← stackRun os d; return (none :: r, d')
    | .ok v => do let (r, d') ← stackRun os (← Stack.pop d); return (some v :: r, d')

/-- FIFO specification: waiting items, oldest first. -/
def fifo : List (QOp α) → List α → List (Option α) × List α
  | [], w => ([], w)
  | .push v :: os, w => fifo os (w ++ [v])
  | .pop :: os, [] => let (r, w) := fifo os []; (none :: r, w)
  | .pop :: os, x :: w => let (r, w') := fifo os w; (some x :: r, w')

/-- LIFO specification: stored items, newest first. -/
def lifo : List (QOp α) → List α → List (Option α) × List α
  | [], w => ([], w)
  | .push v :: os, w => lifo os (v :: w)
  | .pop :: os, [] => let (r, w) := lifo os []; (none :: r, w)
  | .pop :: os, x :: w => let (r, w') := lifo os w; (some x :: r, w')

theorem queue_refine (os : List (QOp α)) : ∀ {d : Deque α} {l : List α}, Rep d l →
    ∃ d', queueRun os d = .ok ((fifo os l.reverse).1, d') ∧ Rep d' (fifo os l.reverse).2.reverse := by
  induction os with
  | nil => intro d l h; exact ⟨d, rfl, by simpa [fifo] using h⟩
  | cons o os ih =>
    intro d l h
    cases o with
    | push v =>
      obtain ⟨d1, h1, h2⟩ := h.pushBack_ok v
      obtain ⟨d2, h3, h4⟩ := ih h2
      refine ⟨d2, ?_, ?_⟩
      · simp only [queueRun, Queue.push, h1, bind, Except.bind, h3, fifo, List.reverse_cons]
      · simpa [fifo] using h4
    | pop =>
      by_cases hl : l = []
      · subst hl
        obtain ⟨d2, h3, h4⟩ := ih h
        refine ⟨d2, ?_, ?_⟩
        · simp only [queueRun, Queue.top, h.getFront_eq, List.getLast?_nil, h3, bind, Except.bind,
            fifo, List.reverse_nil]
          rfl
        · simpa [fifo] using h4
      · obtain ⟨d1, h1, -, h2⟩ := h.popFront_ok hl
        obtain ⟨d2, h3, h4⟩ := ih h2
        have e : l.reverse = l.getLast hl :: l.dropLast.reverse := by
          conv => lhs; rw [← List.dropLast_concat_getLast hl]
          simp
        refine ⟨d2, ?_, ?_⟩
        · simp only [queueRun, Queue.top, Queue.pop, h.getFront_eq, List.getLast?_eq_some_getLast hl,
            h1, h3, bind, Except.bind, fifo, e]
          rfl
        · rw [e]; simpa [fifo] using h4

theorem stack_refine (os : List (QOp α)) : ∀ {d : Deque α} {l : List α}, Rep d l →
    ∃ d', stackRun os d = .ok ((lifo os l).1, d') ∧ Rep d' (lifo os l).2 := by
  induction os with
  | nil => intro d l h; exact ⟨d, rfl, by simpa [lifo] using h⟩
  | cons o os ih =>
    intro d l h
    cases o with
    | push v =>
      obtain ⟨d1, h1, h2⟩ := h.pushBack_ok v
      obtain ⟨d2, h3, h4⟩ := ih h2
      refine ⟨d2, ?_, ?_⟩
      · simp only [stackRun, Stack.push, h1, bind, Except.bind, h3, lifo]
      · simpa [lifo] using h4
    | pop =>
      cases l with
      | nil =>
        obtain ⟨d2, h3, h4⟩ := ih h
        refine ⟨d2, ?_, ?_⟩
        · simp only [stackRun, Stack.top, h.getBack_eq, List.head?_nil, h3, bind, Except.bind, lifo]
          rfl
        · simpa [lifo] using h4
      | cons x l =>
        obtain ⟨d1, h1, h2⟩ := h.popBack_ok (by simp)
        obtain ⟨d2, h3, h4⟩ := ih h2
        refine ⟨d2, ?_, ?_⟩
        · simp only [List.tail_cons] at h3
          simp only [stackRun, Stack.top, Stack.pop, h.getBack_eq, List.head?_cons,
            h1, h3, bind, Except.bind, lifo]
          rfl
        · simpa [lifo] using h4

/-- C14: under every interleaving of pushes and pops a `Queue` hands out exactly what a FIFO
queue does, and in the end holds what is left. -/
theorem C14_queue_fifo (os : List (QOp α)) :
    ∃ d, queueRun os {} = .ok ((fifo os []).1, d) ∧ Observes d (fifo os []).2.reverse := by
  obtain ⟨d, h1, h2⟩ := queue_refine os (rep_empty (α := α))
  exact ⟨d, h1, h2.observes⟩

/-- C14: the same for `Stack` and LIFO order. -/
theorem C14_stack_lifo (os : List (QOp α)) :
    ∃ d, stackRun os {} = .ok ((lifo os []).1, d) ∧ Observes d (lifo os []).2 := by
  obtain ⟨d, h1, h2⟩ := stack_refine os (rep_empty (α := α))
  exact ⟨d, h1, h2.observes⟩

/-- C14: items leave the queue in push order: what came out followed by what is left is exactly
what was pushed. -/
theorem C14_fifo_order (os : List (QOp α)) (w : List α) :
    (fifo os w).1.filterMap id ++ (fifo os w).2 =
      w ++ os.filterMap (fun | .push v => some v | .pop => none) := by
  induction os generalizing w with
  | nil => simp [fifo]
  | cons o os ih =>
    cases o with
    | push v => simp [fifo, ih, List.append_assoc]
    | pop => cases w <;> simp [fifo, ih]

/-! ### Concrete cases -/
example : execRun [.first (.pushBack 1), .first (.pushFront 2), .first (.pushFront 3),
    .second .popBack, .swap, .second (.set 1 9), .second .popBack, .second (.reserve 7)] ({}, {}) =
    .ok ([false, false, false, true, false, false, false, false],
      { mem := [], head := 0, tail := 0 },
      { mem := [some 9, some 3, none, none, none, none, none], head := 2, tail := 0 }) := by rfl
example : (specRun [.first (.pushBack 1), .first (.pushFront 2), .first (.pushFront 3),
    .second .popBack, .swap, .second (.set 1 9), .second .popBack, .second (.reserve 7)] ([], [])).2 =
    ([], [9, 3]) := by rfl
example : (queueRun [.push 1, .push 2, .pop, .push 3, .pop, .pop, .pop] ({} : Deque Nat)).map (·.1) =
    .ok [some 1, some 2, some 3, none] := by rfl
example : (stackRun [.push 1, .push 2, .pop, .push 3, .pop, .pop, .pop] ({} : Deque Nat)).map (·.1) =
    .ok [some 2, some 3, some 1, none] := by rfl

end LS.Deque
